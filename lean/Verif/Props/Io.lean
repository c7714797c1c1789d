import Verif.Io
import Verif.Props.ChunkBulk
import Verif.Props.RingSlices
/-
Whole-buffer io, by the provided methods of `std::io`: C75 (`Chunk`), C76 (`RingBuffer`).
-/
namespace Verif.Chunk
variable {A : Type} {E : Env} {N : Nat} {c : Chunk A} {l : List A}

/-- C75. `write_all(buf)` stores the leading bytes that fit and succeeds exactly if all do; it never panics. -/
theorem C75_write_all (hN : 2 * N < E.W) (h : View E N c l) (buf : List A) :
    Returns (View E N) (Io.writeAll (write E N) buf c) (decide (buf.length ≤ N - l.length)) (l ++ buf.take (N - l.length)) :=
  Io.writeAll_of (fun _ _ buf h => C19_write hN h buf) h buf

/-- C75. `read_exact` with a buffer of `n` bytes takes the oldest `n` bytes and succeeds exactly if there are that many; otherwise all
bytes are taken. -/
theorem C75_read_exact (hN : 2 * N < E.W) (h : View E N c l) (n : Nat) :
    Returns (View E N) (Io.readExact (read E N) n c) (decide (n ≤ l.length), l.take n) (l.drop n) :=
  Io.readExact_of (fun _ _ n h => C19_read hN h n) h n

/-- C75. `read_to_end` returns all bytes in order and empties the chunk, however much room it offers at each turn. -/
theorem C75_read_to_end (hN : 2 * N < E.W) (h : View E N c l) {room : Nat → Nat} (hroom : ∀ k, 0 < room k) :
    Returns (View E N) (Io.readToEnd (read E N) room (l.length + 1) 0 c) l [] :=
  Io.readToEnd_of (fun _ _ n h => C19_read hN h n) hroom h 0 _ (Nat.lt_succ_self _)

/-- C75. What `write_all` accepted, `read_exact` of the same length gives back from an empty chunk. -/
theorem C75_round_trip (hN : 2 * N < E.W) (h : View E N c []) (buf : List A) (hb : buf.length ≤ N) :
    Returns (View E N) ((do
      let ok ← Io.writeAll (write E N) buf
      let r ← Io.readExact (read E N) buf.length
      return (ok, r) : M (Chunk A) (Bool × Bool × List A)) c) (true, true, buf) [] := by
  obtain ⟨s, e, h1⟩ := C75_write_all hN h buf
  simp only [List.nil_append, List.length_nil, Nat.sub_zero, List.take_of_length_le hb] at h1
  obtain ⟨s', e', h2⟩ := C75_read_exact hN h1 buf.length
  refine ⟨s', ?_, by simpa using h2⟩
  simp [M.bind_run, e, e', hb]

/-- C75 is not vacuous: a chunk of capacity 4 with one byte takes three more of four, and gives them out in order. -/
example : View dbg64 4 ({ left := 2, right := 3, mem := Mem.uninit.put 2 7 } : Chunk Nat) [7] ∧
    (Io.writeAll (write dbg64 4) [1, 2, 3, 4] ({ left := 2, right := 3, mem := Mem.uninit.put 2 7 } : Chunk Nat)).seen = some false ∧
    (Io.readToEnd (read dbg64 4) (fun k => k + 1) 5 0 ({ left := 2, right := 3, mem := Mem.uninit.put 2 7 } : Chunk Nat)).seen = some [7] :=
  ⟨rfl, by decide +kernel, by decide +kernel⟩

end Verif.Chunk

namespace Verif.Ring
open Verif.Chunk (dbg64 rel64)
variable {A : Type} {E : Env} {N : Nat} {c : Ring A} {l : List A}

/-- C76, the part about writing that holds, in release builds: `write_all(buf)` stores the leading bytes that fit and succeeds exactly if
all do. -/
theorem C76_write_all_partial (hW : 2 * N < E.W) (hd : E.debug = false) (h : View E N c l) (buf : List A) :
    Returns (View E N) (Io.writeAll (write E N) buf c) (decide (buf.length ≤ N - l.length)) (l ++ buf.take (N - l.length)) :=
  Io.writeAll_of (fun _ _ buf h => C41_write_partial hW hd h buf) h buf

/-- C76. `read_exact` with a buffer of `n` bytes takes the oldest `n` bytes and succeeds exactly if there are that many; otherwise all
bytes are taken. -/
theorem C76_read_exact (hW : 2 * N < E.W) (h : View E N c l) (n : Nat) :
    Returns (View E N) (Io.readExact (read E N) n c) (decide (n ≤ l.length), l.take n) (l.drop n) :=
  Io.readExact_of (fun _ _ n h => C42_read hW h n) h n

/-- C76. `read_to_end` returns all bytes in order and empties the buffer, however much room it offers at each turn. -/
theorem C76_read_to_end (hW : 2 * N < E.W) (h : View E N c l) {room : Nat → Nat} (hroom : ∀ k, 0 < room k) :
    Returns (View E N) (Io.readToEnd (read E N) room (l.length + 1) 0 c) l [] :=
  Io.readToEnd_of (fun _ _ n h => C42_read hW h n) hroom h 0 _ (Nat.lt_succ_self _)

/-- C76 fails in debug builds: `write_all` of two bytes into a buffer with room for two panics when they have to wrap around. -/
theorem C76_debug_write_all_counterexample :
    View dbg64 3 ({ origin := 1, length := 1, mem := Mem.uninit.put 1 7 } : Ring Nat) [7] ∧
    (∃ s, Io.writeAll (write dbg64 3) [1, 2] ({ origin := 1, length := 1, mem := Mem.uninit.put 1 7 } : Ring Nat) = .panic s) ∧
    (∃ s, Io.writeAll (write rel64 3) [1, 2] ({ origin := 1, length := 1, mem := Mem.uninit.put 1 7 } : Ring Nat) = .ok true s ∧
      items rel64 3 s = .ok [7, 1, 2] s) :=
  ⟨⟨rfl, by decide, by decide⟩, ⟨_, rfl⟩, ⟨_, rfl, rfl⟩⟩

/-- C76 is not vacuous. -/
example : (Io.readExact (read dbg64 3) 2 full).seen = some (true, [10, 20]) ∧
    (Io.readExact (read dbg64 3) 4 full).seen = some (false, [10, 20, 30]) ∧
    (Io.readToEnd (read dbg64 3) (fun _ => 2) 4 0 full).seen = some [10, 20, 30] :=
  ⟨by decide +kernel, by decide +kernel, by decide +kernel⟩

end Verif.Ring
