import Verif.Shared
import Verif.Chunk.View
import Verif.Props.ChunkBulk
import Verif.Fuzz
/-! # C91 for `Chunk`: shared calls write nothing; concurrent readers agree -/
namespace Verif.Chunk
open Shared
variable {A H : Type}

/-- The calls that take a chunk by `&self` (src/sized_chunk/mod.rs:109-121, 226-240, 682-689, 708-716, 727-759; iter.rs:26-28). -/
inductive Query (A H : Type) where
  | len | isEmpty | isFull | asSlice | sizeHint | fmt
  | index (i : Nat)
  | eqSlice (eq : A → A → Bool) (other : List A)
  | hash (h : A → List (Feed H))
  | clone (cl : A → Option A)
/-- The calls that take two chunks by shared reference (src/sized_chunk/mod.rs:751-779). -/
inductive Query2 (A : Type) where
  | eq (eq : A → A → Bool)
  | partialCmp (cmp : A → A → Option Ordering)
  | cmp (cmp : A → A → Ordering)

/-- The calls on the model of the code. -/
def ask (E : Env) (N : Nat) (dp : A → Bool) : Query A H → M (Chunk A) (Ans A H)
  | .len => do return .nat (← len E)
  | .isEmpty => do return .bool (← isEmpty)
  | .isFull => do return .bool (← isFull N)
  | .asSlice => do return .refs (← asSlice E N)
  | .sizeHint => do let h ← sizeHint E; return .hint h.1 h.2
  | .fmt => do return .fmt (← fmt E N)
  | .index i => do return .ref (← index E N i)
  | .eqSlice eq other => do return .bool (← eqSlice E N eq other)
  | .hash h => do return .feed (← hash E N h)
  | .clone cl => do return .refs (← cloneThen (clone E N dp cl) (asSlice E N))
def ask2 (E : Env) (N : Nat) : Query2 A → M (Chunk A × Chunk A) (Ans A H)
  | .eq eq => do return .bool (← eqChunk E N N eq)
  | .partialCmp c => do return .ord (← partialCmp E N c)
  | .cmp c => do return .ord (some (← cmp E N c))

/-- What a list of at most `N` items answers; `none` if the call panics. -/
def answer (N : Nat) : Query A H → List A → Option (Ans A H)
  | .len, l => some (.nat l.length)
  | .isEmpty, l => some (.bool l.isEmpty)
  | .isFull, l => some (.bool (decide (l.length = N)))
  | .asSlice, l => some (.refs l)
  | .sizeHint, l => some (.hint l.length (some l.length))
  | .fmt, l => some (.fmt [.text "Chunk", .list l])
  | .index i, l => l[i]?.map .ref
  | .eqSlice eq other, l => some (.bool (seqEq eq l other))
  | .hash h, l => some (.feed (hashItems h l))
  | .clone cl, l => (l.mapM cl).map .refs
def answer2 : Query2 A → List A → List A → Option (Ans A H)
  | .eq eq, l, k => some (.bool (seqEq eq l k))
  | .partialCmp c, l, k => some (.ord (seqPartialCmp c l k))
  | .cmp c, l, k => some (.ord (some (seqCmp c l k)))

section proof
variable {E : Env} {N : Nat} {dp : A → Bool}

theorem ro_len : ReadOnly (len E : M (Chunk A) Nat) := by unfold len getRight getLeft; keeps
theorem ro_asSlice : ReadOnly (asSlice E N : M (Chunk A) (List A)) := by
  unfold asSlice; have := ro_len (A := A) (E := E); unfold getMem getLeft; keeps
theorem keeps_clone (cl : A → Option A) : Keeps (·.1) (clone E N dp cl) := by
  unfold clone
  refine Keeps.bind (Keeps.of_readOnly (Keeps.onFst Keeps.get)) (fun _ => Keeps.bind ?_ (fun _ => Keeps.pure _))
  exact Keeps.withLocal (part := fun s => s) (Keeps.onFst' Keeps.fst) Keeps.atFst

/-- C91. A call through a shared reference to a chunk writes nothing: on every chunk, in whatever state, it leaves every byte as it was,
whether it returns or panics. -/
theorem C91_shared_calls_write_nothing (q : Query A H) : ReadOnly (ask E N dp q) := by
  have h1 := ro_len (A := A) (E := E)
  have h2 := ro_asSlice (A := A) (E := E) (N := N)
  cases q with
  | clone cl => exact Keeps.bind (Keeps.cloneThen (keeps_clone cl)) (fun _ => Keeps.pure _)
  | _ => unfold ask; (try unfold isEmpty isFull sizeHint fmt index eqSlice hash getLeft getRight); keeps
theorem C91_shared_calls_on_two_write_nothing (q : Query2 A) : ReadOnly (ask2 E N q : M (Chunk A × Chunk A) (Ans A H)) := by
  have h := ro_asSlice (A := A) (E := E) (N := N)
  cases q <;> unfold ask2 <;> (first | unfold eqChunk | unfold partialCmp | unfold cmp) <;> keeps

/-- C91. Threads that share chunks and call them through shared references: whatever the scheduler does, the chunks never change, and
every thread gets from each of its calls the answer that a list with the same contents gives. -/
theorem C91_readers_agree (hN : 2 * N < E.W) (hd : ∀ a, dp a = false) :
    Agree (View E N) (ask E N dp) (ask2 E N) (answer N : Query A H → List A → Option (Ans A H)) answer2 := by
  refine agree (fun q c l h => ?_) (fun q c l c' l' h h' => ?_)
  · have hr := h.rep hN
    cases q with
    | index i =>
      cases hi : l[i]? <;> simp [ask, answer, index, asSlice_eq (E := E) hr, hi] <;> rfl
    | clone cl =>
      cases hc : l.mapM cl with
      | some cs =>
        obtain ⟨d, e, hv, _⟩ := C16_clone (dp := dp) hN h [] cs (mapM_some hc)
        simp [ask, answer, hc, cloneThen, unlogged, own, e, asSlice_eq (E := E) (hv.rep hN)]
      | none =>
        obtain ⟨l₁, x, l₂, cs, rfl, h1, h2⟩ := mapM_none hc
        have e := C16_clone_panics (dp := dp) hN l₁ l₂ x h [] cs h1 h2 (by simp [hd])
        simp [ask, answer, hc, cloneThen, unlogged, e]
    | _ => simp [ask, answer, len_eq (E := E) hr, isEmpty_eq hr, isFull_eq hr, asSlice_eq (E := E) hr, sizeHint_eq (E := E) hr, fmt, eqSlice, hash]
  · have hr := h.rep hN
    have hr' := h'.rep hN
    cases q <;> simp [ask2, answer2, eqChunk, partialCmp, cmp, asSlice_eq (E := E) hr, asSlice_eq (E := E) hr']
end proof

section examples
/-- Two threads on two shared chunks; one of the calls panics. -/
def readers : Nat → Thread (Call (Query Nat Nat) (Query2 Nat)) (Ans Nat Nat)
  | 0 => ⟨[.one 0 .len, .one 0 (.index 5), .two 0 1 (.eq fun a b => decide (a = b))], []⟩
  | 1 => ⟨[.one 1 .asSlice, .one 0 (.clone some)], []⟩
  | _ => ⟨[], []⟩
/-- Handle 0 is a chunk with its items at the end of its memory, handle 1 an empty one. -/
def sharedChunks : Nat → Chunk Nat := fun h => if h = 0 then edge else new
example : ∀ h, View dbg64 3 (sharedChunks h) (if h = 0 then [10, 20] else []) := by
  intro h; unfold sharedChunks; split <;> rfl
example : (interleave (call (ask dbg64 3 Fuzz.nodrop) (ask2 dbg64 3)) [1, 0, 0, 1, 7, 0] (sharedChunks, readers)).map (fun s => ((s.2 0).got, (s.2 1).got)) =
    some ([some (.nat 2), none, some (.bool false)], [some (.refs []), some (.refs [10, 20])]) := by decide +kernel
/-- A call that is not shared is not read-only. -/
example : ¬ ReadOnly (popFront dbg64 3 : M (Chunk Nat) Nat) := fun h => by
  have := (h edge).1 10 _ rfl
  exact absurd (congrArg Chunk.left this) (by decide)
end examples
end Verif.Chunk
