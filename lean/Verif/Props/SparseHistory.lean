import Verif.Sparse.View
import Verif.Props.ChunkHistory
/-
Properties of whole histories of `SparseChunk` calls: C46, C47, C48, C54.
-/
namespace Verif.Sparse
open Verif.Chunk (dbg64 rel64)
variable {A : Type} {E : Env} {N : Nat} {dp : A → Bool} {cl : A → Option A}

/-- C46. For every history of `SparseChunk` calls on any number of chunks, running the code and running the same history on maps
from indices gives the same observations (returned values, panics, destructor runs), and afterwards `get` of every chunk is the
lookup in its map. -/
theorem C46_history_refines_maps (hW : N < E.W) (ops : List (Op (Ctor A) (Un A) Fork (Bin A))) :
    Ref (WorldRel (View N)) ((machine E N dp cl).run ops World.empty) ((specMachine N dp cl).run ops World.empty) :=
  (machineRelView hW).run_ref ops MachineRel.empty_rel

/-- C46, continued from any state: the same from any two worlds whose chunks show the maps. -/
theorem C46_history_refines_from (hW : N < E.W) (ops : List (Op (Ctor A) (Un A) Fork (Bin A)))
    {w : World A (Sparse A)} {v : World A (SMap A)} (h : WorldRel (View N) w v) :
    Ref (WorldRel (View N)) ((machine E N dp cl).run ops w) ((specMachine N dp cl).run ops v) :=
  (machineRelView hW).run_ref ops h

/-- A history: entries come and go, one insertion is out of range, a clone is compared and changed, options are collected. -/
def demo : List (Op (Ctor Nat) (Un Nat) Fork (Bin Nat)) :=
  [.ctor (.pair 3 10 1 20), .un 0 (.insert 3 30), .un 0 (.insert 4 1), .un 0 (.get 1), .fork 0 .clone, .bin 0 1 (.eq (· == ·)),
   .un 1 (.set 3 8), .bin 0 1 (.eq (· == ·)), .un 1 .entries, .un 1 .pop, .un 1 .firstIndex, .un 1 (.index 1), .un 1 .len,
   .ctor (.fromIter (It.ofList [none, some 5, none, some 6])), .un 2 .optionItems, .un 2 (.remove 1), .un 2 .indices,
   .un 2 (.mutate (List.map (· + 1))), .un 2 .items, .ctor (.fromIter (It.ofList [none, none, none, none, none])), .un 3 .isEmpty,
   .ctor (.fromIter (It.ofList [none, none, none, none, some 3]))]

/-- C46 is not vacuous: the demo history runs and shows the expected answers. -/
example : ((machine dbg64 4 (fun _ => false) (fun a => some a)).run demo World.empty).seen
    = some [.handle 0, .res (.opt (some 10)), .panicked, .res (.optRef (some 20)), .handle 1, .res (.bool true), .res (.val 30),
        .res (.bool false), .res (.entries [(1, 20), (3, 8)]), .res (.opt (some 20)), .res (.nats [3]), .panicked, .res (.nat 1),
        .handle 2, .res (.optRefs [none, some 5, none, some 6]), .res (.opt (some 5)), .res (.nats [3]), .res .unit, .res (.refs [7]),
        .handle 3, .res (.bool true), .panicked] := by decide +kernel

/-- C47. After any history, every live chunk shows a map `m` (through `get`), `len()` is the number of indices below `N` at which
`m` has an entry (and at most `N`), `is_empty()` says whether there is none, `is_full()` whether every index below `N` has one. -/
theorem C47_length_counts_entries (hW : N < E.W) {c : Sparse A} (h : Reachable E N dp cl c) :
    ∃ m, View N c m ∧ len N c = .ok ((List.range N).countP (fun i => (m i).isSome)) c ∧
      (List.range N).countP (fun i => (m i).isSome) ≤ N ∧
      (∃ b, isEmpty N c = .ok b c ∧ (b = true ↔ ∀ i, m i = none)) ∧
      (∃ b, isFull N c = .ok b c ∧ (b = true ↔ ∀ i, i < N → m i ≠ none)) := by
  obtain ⟨m, hm⟩ := h.view hW
  have hr := hm.rep
  have hk : (m.keys N).length = (List.range N).countP (fun i => (m i).isSome) := by
    rw [List.countP_eq_length_filter]; rfl
  refine ⟨m, hm, by rw [len_eq hr, hk], by rw [← hk]; exact keys_length_le m, ⟨_, isEmpty_eq hr, ?_⟩, ⟨_, isFull_eq hr, ?_⟩⟩
  · rw [decide_eq_true_eq, List.length_eq_zero_iff]
    constructor
    · intro h i
      by_cases hi : i < N
      · cases hx : m i with
        | none => rfl
        | some a =>
          have : i ∈ m.keys N := mem_keys.2 ⟨hi, by simp [hx]⟩
          rw [h] at this; cases this
      · exact hr.out i (by omega)
    · intro h
      unfold SMap.keys
      rw [List.filter_eq_nil_iff]
      intro i _; simp [h i]
  · rw [decide_eq_true_eq]
    have : (m.keys N).length = N ↔ (m.keys N).length = (List.range N).length := by simp
    rw [this]
    unfold SMap.keys
    rw [List.length_filter_eq_length_iff]
    simp only [List.mem_range]
    constructor
    · intro h i hi he; have := h i hi; rw [he] at this; cases this
    · intro h i hi; cases hx : m i with
      | none => exact absurd hx (h i hi)
      | some a => rfl

/-- C47 is not vacuous: a chunk of capacity 3 with two entries is reachable. -/
example : Reachable dbg64 3 (fun _ => false) (fun a => some a)
    (⟨fun j => if j = 0 then true else if j = 2 then true else bmEmpty j, (Mem.uninit.put 2 7).put 0 8⟩ : Sparse Nat) :=
  ⟨[.ctor (.unit 2 7), .un 0 (.insert 0 8)], _, _, 0, rfl, rfl⟩
example : ∃ s, len 3 (⟨fun j => if j = 0 then true else if j = 2 then true else bmEmpty j, (Mem.uninit.put 2 7).put 0 8⟩ : Sparse Nat)
    = .ok 2 s := ⟨_, rfl⟩

/-- C48. No history of `SparseChunk` calls reads a slot that was not written or accesses one outside `0..N` (nor uses the bitmap
out of range), nor runs for ever. -/
theorem C48_no_undefined_behaviour (hW : N < E.W) (ops : List (Op (Ctor A) (Un A) Fork (Bin A))) :
    (machine E N dp cl).run ops World.empty ≠ .ub ∧ (machine E N dp cl).run ops World.empty ≠ .diverge := by
  have h := C46_history_refines_maps (dp := dp) (cl := cl) hW ops
  constructor <;> intro e <;> rw [e] at h <;> exact h

/-- C48, second part: a history in which no destructor panics always runs to its end. -/
theorem C48_history_completes (hW : N < E.W) (hd : ∀ a, dp a = false) (ops : List (Op (Ctor A) (Un A) Fork (Bin A))) :
    ∃ os w, (machine E N dp cl).run ops World.empty = .ok os w :=
  (machineRel hW).run_total (specTotal hd) ops MachineRel.empty_rel

/-- C48, third part: indexing a live chunk returns what `get` shows, and panics exactly where `get` shows nothing. -/
theorem C48_index_panics_exactly {c : Sparse A} {m : SMap A} (h : View N c m) (i : Nat) :
    (∀ a, m i = some a → index N i c = .ok a c) ∧ PanicsExactly (View N) m (index N i c) (m i = none) := by
  have hr := index_ref h.rep i
  rw [← view_eq_rep] at hr
  unfold MSpec.index at hr
  refine ⟨fun a ha => ?_, ?_⟩
  · simp [index, get_eq h.rep, ha, unwrap]
  · refine hr.panicsExactly (fun hc => by rw [hc]) (fun hc => ?_)
    cases hm : m i with
    | none => exact absurd hm hc
    | some a => exact ⟨_, _, rfl⟩

/-- C48 is not vacuous: a history with an overwritten entry, indices out of range and a panicking iterator. -/
example : ((machine rel64 2 (fun _ => false) (fun a => some a)).run
    [.ctor (.pair 1 5 1 6), .un 0 .entries, .un 0 (.index 0), .un 0 (.index 2), .un 0 (.remove 2), .un 0 (.get 7), .un 0 (.replace 7 9),
     .ctor (.fromIter [.item (some 1), .panic, .item (some 2)]), .drop 0] World.empty).seen
    = some [.handle 0, .res (.entries [(1, 6)]), .panicked, .panicked, .panicked, .res (.optRef none), .res (.val 9), .panicked,
        .res .unit] := by decide +kernel

/-- C54, at every point of a history: what was moved in (or made by cloning) is exactly what was handed back, was destroyed, or is
still stored in a live chunk.  Conditions (`terms`): writes through `&mut` only rearrange items, and no chunk's own drop panicked. -/
theorem C54_conservation [DecidableEq A] (hW : N < E.W) (ops : List (Op (Ctor A) (Un A) Fork (Bin A)))
    {os : List (Obs A)} {w : World A (Sparse A)}
    (hr : (machine E N dp cl).run ops World.empty = .ok os w)
    (hg : AllSteps terms.Accounted ops os) (hh : AllSteps terms.Keeps ops os) :
    (inputs.ofRun ops os ++ w.made).Perm (outsOf os ++ w.log ++ w.live (peek N)) := by
  obtain ⟨leak, hl, hp⟩ := conservation (machineRel hW) specBalanced (fun c d h => peek_eq h) ops hr hg
  rw [hl hh, List.append_nil] at hp
  exact hp

/-- C54. When everything has been dropped in the end, the elements moved in (or made by cloning) are exactly those handed back plus
those destroyed: nothing leaks, nothing is dropped twice. -/
theorem C54_every_element_once [DecidableEq A] (hW : N < E.W) (ops : List (Op (Ctor A) (Un A) Fork (Bin A)))
    {os : List (Obs A)} {w : World A (Sparse A)}
    (hr : (machine E N dp cl).run ops World.empty = .ok os w)
    (hg : AllSteps terms.Accounted ops os) (hh : AllSteps terms.Keeps ops os) (hend : ∀ h, w.heap h = none) :
    (inputs.ofRun ops os ++ w.made).Perm (outsOf os ++ w.log) := by
  have h := C54_conservation hW ops hr hg hh
  have : w.live (peek N) = [] := by
    unfold World.live
    generalize w.next = n
    induction n with
    | zero => rfl
    | succ n ih => simp [liveItems, ih, hend]
  rwa [this, List.append_nil] at h

/-- C54, even with panicking destructors: if the elements moved in and made are pairwise distinct, then no element is ever
destroyed, handed back, or still stored more than once in total. -/
theorem C54_never_twice [DecidableEq A] (hW : N < E.W) (ops : List (Op (Ctor A) (Un A) Fork (Bin A)))
    {os : List (Obs A)} {w : World A (Sparse A)} (hr : (machine E N dp cl).run ops World.empty = .ok os w)
    (hg : AllSteps terms.Accounted ops os) (hd : (inputs.ofRun ops os ++ w.made).Nodup) :
    (outsOf os ++ w.log ++ w.live (peek N)).Nodup := by
  obtain ⟨leak, hl, hp⟩ := conservation (machineRel hW) specBalanced (fun c d h => peek_eq h) ops hr hg
  exact ((hp.nodup_iff).1 hd).sublist (List.sublist_append_left _ _)

/-- A history with an overwritten entry, a refused insertion, a clone, and a half-finished drain. -/
def demo2 : List (Op (Ctor Nat) (Un Nat) Fork (Bin Nat)) :=
  [.ctor (.pair 1 1 1 2), .un 0 (.insert 0 3), .un 0 (.insert 9 4), .fork 0 .clone, .un 0 .next, .ctor (.fromIter (It.ofList [some 7])),
   .drop 0, .drop 1, .drop 2]

/-- C54 is not vacuous: the hypotheses hold for `demo2`, which runs to the end and destroys everything. -/
example : ∀ os : List (Obs Nat), AllSteps terms.Accounted demo2 os := by
  intro os
  apply AllSteps.of_forall
  intro op h
  simp only [demo2, List.mem_cons, List.not_mem_nil, or_false] at h
  rcases h with rfl | rfl | rfl | rfl | rfl | rfl | rfl | rfl | rfl <;> simp [Terms.Accounted, terms]
example : ((machine dbg64 2 (fun _ => false) (fun a => some (a + 10))).run demo2 World.empty).seen
      = some [.handle 0, .res (.opt none), .panicked, .handle 1, .res (.opt (some 3)), .handle 2, .res .unit, .res .unit, .res .unit] := by
  decide +kernel
example : ((machine dbg64 2 (fun _ => false) (fun a => some (a + 10))).run demo2 World.empty).final.map (fun w => (w.log, w.made))
      = some ([1, 4, 2, 13, 12, 7], [13, 12]) := by decide +kernel
end Verif.Sparse
