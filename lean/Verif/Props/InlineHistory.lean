import Verif.Inline.View
import Verif.Props.ChunkHistory
/-
Properties of whole histories of `InlineArray` calls: C59, C60, C61, C62.
-/
namespace Verif.Inline
variable {A : Type} [DecidableEq A] {E : Env} {L : Layout A} {dp : A → Bool} {cl : A → Option A}

/-- `InlineArray<u32, [u64; 3]>` on a 64-bit machine: 24 bytes aligned to 8, elements of 4 bytes aligned to 4; the header comes first. -/
def words : Layout Nat := ⟨24, 8, 4, 4, 8, 8, 8, none⟩
/-- Elements of 16 bytes aligned to 16 in a host of 48 bytes aligned to 16: the elements come first and the header last. -/
def wide : Layout Nat := ⟨48, 16, 16, 16, 8, 8, 8, none⟩
/-- `InlineArray<(), [u64; 2]>`. -/
def zsts : Layout Unit := ⟨16, 8, 0, 1, 8, 8, 8, some ()⟩

theorem words_valid : words.Valid Chunk.dbg64 :=
  ⟨⟨3, rfl⟩, ⟨2, rfl⟩, ⟨3, rfl⟩, ⟨3, rfl⟩, ⟨3, rfl⟩, ⟨1, rfl⟩, ⟨1, rfl⟩, by decide, by decide, by decide, fun h => by cases h⟩
theorem wide_valid : wide.Valid Chunk.dbg64 :=
  ⟨⟨4, rfl⟩, ⟨4, rfl⟩, ⟨3, rfl⟩, ⟨3, rfl⟩, ⟨3, rfl⟩, ⟨1, rfl⟩, ⟨1, rfl⟩, by decide, by decide, by decide, fun h => by cases h⟩
theorem zsts_valid : zsts.Valid Chunk.dbg64 :=
  ⟨⟨3, rfl⟩, ⟨0, rfl⟩, ⟨3, rfl⟩, ⟨3, rfl⟩, ⟨2, rfl⟩, ⟨0, rfl⟩, ⟨1, rfl⟩, by decide, by decide, by decide, fun _ _ => rfl⟩

/-- C59. For every layout and every history of `InlineArray` calls on any number of arrays, wherever they are placed in memory,
running the byte-level code and running the same history on plain lists bounded by `CAPACITY` gives the same observations (returned
values, panics, destructor runs), and afterwards every array shows, through its slice, exactly its list. -/
theorem C59_history_refines_bounded_lists (hv : L.Valid E) (ops : List (Op (Ctor A) (Un A) Fork Empty)) :
    Ref (WorldRel (View E L)) ((machine E L dp cl).run ops World.empty)
      ((specMachine dp cl (Accepted E L) (cap E L)).run ops World.empty) :=
  ((machineRel hv).run_ref ops MachineRel.empty_rel).imp fun _ _ h => WorldRel.imp (fun _ _ h => h.view hv) h

/-- C59. After any history the slice of every live array has at most `CAPACITY` items, `len()` is its length, `is_empty()` says whether
it is empty and `is_full()` whether it has exactly `CAPACITY` items. -/
theorem C59_length_and_flags (hv : L.Valid E) {s : Inline A} (h : Reachable E L dp cl s) :
    ∃ l, View E L s l ∧ l.length ≤ cap E L ∧ len E L s = .ok l.length s ∧ isEmpty E L s = .ok (decide (l = [])) s ∧
      isFull E L s = .ok (decide (l.length = cap E L)) s := by
  obtain ⟨l, hr⟩ := h.rep hv
  refine ⟨l, hr.view hv, hr.le, len_eq hv hr, ?_, isFull_eq hv hr⟩
  rw [isEmpty_eq hv hr]; cases l <;> simp

/-- A history: fill up, be refused, move the array in memory, insert, remove, split, look. -/
def demo : List (Op (Ctor Nat) (Un Nat) Fork Empty) :=
  [.ctor (.new 3), .un 0 (.push 1), .un 0 (.push 2), .un 0 (.insert 1 7), .un 0 (.moveTo 5), .un 0 .items, .un 0 (.remove 0),
   .fork 0 (.splitOff 9 1), .un 0 .items, .un 1 .items, .un 1 (.remove 8), .drop 0, .drop 1]

/-- C59 is not vacuous: the demo history runs with the header first (capacity 4) and with the elements first (capacity 2, where the
third item is refused). -/
example : ((machine Chunk.dbg64 words (fun _ => false) some).run demo World.empty).seen
    = some [.handle 0, .res .unit, .res .unit, .res .unit, .res .unit, .res (.refs [1, 7, 2]), .res (.opt (some 1)), .handle 1,
        .res (.refs [7]), .res (.refs [2]), .res (.opt none), .res .unit, .res .unit] := by decide +kernel
example : ((machine Chunk.dbg64 wide (fun _ => false) some).run demo World.empty).seen
    = some [.handle 0, .res .unit, .res .unit, .panicked, .res .unit, .res (.refs [1, 2]), .res (.opt (some 1)), .handle 1,
        .res (.refs [2]), .res (.refs []), .res (.opt none), .res .unit, .res .unit] := by decide +kernel
example : ((machine Chunk.dbg64 zsts (fun _ => false) some).run
    [.ctor (.new 1), .un 0 (.push ()), .un 0 (.push ()), .un 0 .items, .un 0 .pop, .un 0 .len] World.empty).seen
    = some [.handle 0, .res .unit, .res .unit, .res (.refs [(), ()]), .res (.opt (some ())), .res (.nat 1)] := by decide +kernel

/-- C60. No history of `InlineArray` calls makes a misaligned, out-of-bounds or uninitialised access, or loops forever, in either build
mode, for any layout and any placement in memory. -/
theorem C60_no_undefined_behaviour (hv : L.Valid E) (ops : List (Op (Ctor A) (Un A) Fork Empty)) :
    (machine E L dp cl).run ops World.empty ≠ .ub ∧ (machine E L dp cl).run ops World.empty ≠ .diverge := by
  have h := C59_history_refines_bounded_lists (dp := dp) (cl := cl) hv ops
  constructor <;> intro e <;> rw [e] at h <;> exact h

/-- C60, second half: a history in which no destructor panics always runs to its end. -/
theorem C60_history_completes (hv : L.Valid E) (hd : ∀ a, dp a = false) (ops : List (Op (Ctor A) (Un A) Fork Empty)) :
    ∃ os w, (machine E L dp cl).run ops World.empty = .ok os w :=
  (machineRel hv).run_total (specTotal hd _ _) ops MachineRel.empty_rel

/-- C60 is not vacuous: what the model calls undefined behaviour exists, e.g. reading an item that was never written, or at an address
that is not aligned. -/
example : (index Chunk.dbg64 words 0 (⟨0, fun j => if j < 8 then .len 1 j else .uninit⟩ : Inline Nat)).isUb = true := by decide +kernel
example : (len Chunk.rel64 words (⟨4, fun j => .len 0 j⟩ : Inline Nat)).isUb = true := by decide +kernel

/-- C61, at every point of a history: what was moved in (or made by cloning) is exactly what was handed back, was destroyed, or is still
stored in a live array.  Conditions (`terms`): no `clear` panicked (C62), writes through `&mut` only rearrange items, and no `clone`
panicked. -/
theorem C61_conservation (hv : L.Valid E) (ops : List (Op (Ctor A) (Un A) Fork Empty)) {os : List (Obs A)} {w : World A (Inline A)}
    (hr : (machine E L dp cl).run ops World.empty = .ok os w)
    (hg : AllSteps (terms dp).Accounted ops os) (hh : AllSteps (terms dp).Keeps ops os) :
    (inputs.ofRun ops os ++ w.made).Perm (outsOf os ++ w.log ++ w.live (peek E L)) := by
  obtain ⟨leak, hl, hp⟩ := conservation (machineRel hv) (specBalanced _ _) (fun c d h => peek_eq hv h) ops hr hg
  rw [hl hh, List.append_nil] at hp
  exact hp

/-- C61. When everything has been dropped in the end, the elements moved in (or made by cloning) are exactly those handed back plus those
destroyed: nothing leaks, nothing is dropped twice. -/
theorem C61_every_element_once (hv : L.Valid E) (ops : List (Op (Ctor A) (Un A) Fork Empty)) {os : List (Obs A)} {w : World A (Inline A)}
    (hr : (machine E L dp cl).run ops World.empty = .ok os w)
    (hg : AllSteps (terms dp).Accounted ops os) (hh : AllSteps (terms dp).Keeps ops os) (hend : ∀ h, w.heap h = none) :
    (inputs.ofRun ops os ++ w.made).Perm (outsOf os ++ w.log) := by
  have h := C61_conservation hv ops hr hg hh
  have : w.live (peek E L) = [] := by
    unfold World.live
    generalize w.next = n
    induction n with
    | zero => rfl
    | succ n ih => simp [liveItems, ih, hend]
  rwa [this, List.append_nil] at h

/-- C61, even when clones panic: if the elements moved in and made are pairwise distinct, then no element is ever destroyed, handed back,
or still stored more than once in total. -/
theorem C61_never_twice (hv : L.Valid E) (ops : List (Op (Ctor A) (Un A) Fork Empty)) {os : List (Obs A)} {w : World A (Inline A)}
    (hr : (machine E L dp cl).run ops World.empty = .ok os w)
    (hg : AllSteps (terms dp).Accounted ops os) (hd : (inputs.ofRun ops os ++ w.made).Nodup) :
    (outsOf os ++ w.log ++ w.live (peek E L)).Nodup := by
  obtain ⟨leak, hl, hp⟩ := conservation (machineRel hv) (specBalanced _ _) (fun c d h => peek_eq hv h) ops hr hg
  exact ((hp.nodup_iff).1 hd).sublist (List.sublist_append_left _ _)

/-- A history with a refused push, a clone, an abandoned iteration and a `clear`. -/
def demo2 : List (Op (Ctor Nat) (Un Nat) Fork Empty) :=
  [.ctor (.fromIter 0 (It.ofList [1, 2])), .un 0 (.push 3), .un 0 .next, .fork 0 (.clone 1), .un 1 .clear, .un 1 (.push 4), .drop 0, .drop 1]

/-- C61 is not vacuous: the hypotheses hold for `demo2`, which runs to the end and destroys everything. -/
example : ∀ os : List (Obs Nat), AllSteps (terms (fun _ => false)).Accounted demo2 os := by
  intro os
  apply AllSteps.of_forall
  intro op h
  simp only [demo2, List.mem_cons, List.not_mem_nil, or_false] at h
  rcases h with rfl | rfl | rfl | rfl | rfl | rfl | rfl | rfl <;> simp [Terms.Accounted, terms]
example : ((machine Chunk.dbg64 wide (fun _ => false) (fun a => some (a + 10))).run demo2 World.empty).seen
      = some [.handle 0, .panicked, .res (.opt (some 1)), .handle 1, .res .unit, .res .unit, .res .unit, .res .unit] ∧
    ((machine Chunk.dbg64 wide (fun _ => false) (fun a => some (a + 10))).run demo2 World.empty).final.map
      (fun w => (w.log, w.made, w.heap 0 |>.isNone, w.heap 1 |>.isNone)) = some ([3, 12, 2, 4], [12], true, true) := by
  refine ⟨by decide +kernel, by decide +kernel⟩
example : AllSteps (terms (fun _ => false)).Keeps demo2
    ([.handle 0, .panicked, .res (.opt (some 1)), .handle 1, .res .unit, .res .unit, .res .unit, .res .unit] : List (Obs Nat)) := by
  simp [AllSteps, demo2, Terms.Keeps, terms, Obs.panic]

/-! ### C62: false of the code -/

/-- C62 fails: if a destructor panics inside `clear`, the array keeps its length and destroys the same items a second time when it is
dropped. -/
theorem C62_double_drop_counterexample :
    ((machine Chunk.rel64 words (fun a => a == 1) some).run
      [.ctor (.fromIter 0 (It.ofList [1, 2])), .un 0 .clear, .drop 0] World.empty).final.map (·.log) = some [1, 2, 1, 2] := by
  decide +kernel

/-- What the part of C62 that holds asks of an action and its result: `clear` did not panic, and nothing was written through `&mut`. -/
def NoPanicInClear : Op (Ctor A) (Un A) Fork Empty → Obs A → Prop
  | .un _ .clear, o => o ≠ .panicked
  | .un _ (.mutate _), _ => False
  | _, _ => True

/-- C62, the part that holds: with destructors that may panic anywhere, as long as no `clear` call panicked, no element is destroyed,
returned or stored more than once in total. -/
theorem C62_no_double_drop_partial (hv : L.Valid E) (ops : List (Op (Ctor A) (Un A) Fork Empty)) {os : List (Obs A)}
    {w : World A (Inline A)} (hr : (machine E L dp cl).run ops World.empty = .ok os w)
    (hg : AllSteps NoPanicInClear ops os) (hd : (inputs.ofRun ops os ++ w.made).Nodup) :
    (outsOf os ++ w.log ++ w.live (peek E L)).Nodup := by
  refine C61_never_twice hv ops hr (AllSteps.imp ?_ hg) hd
  intro op o ho
  cases op with
  | un h k =>
    have hp : o ≠ .panicked → o.panic = false := by cases o <;> simp [Obs.panic]
    cases k <;> first | trivial | exact .inl (hp ho) | exact ho.elim
  | _ => trivial

/-- C62 (partial) is not vacuous: a history with a successful `clear` and a panicking destructor in the final drop. -/
example : ((machine Chunk.rel64 words (fun a => a == 1) some).run
    [.ctor (.fromIter 0 (It.ofList [3, 2])), .un 0 .clear, .un 0 (.push 1), .drop 0] World.empty).seen
      = some [.handle 0, .res .unit, .res .unit, .panicked] := by decide +kernel
example : AllSteps (A := Nat) NoPanicInClear [.ctor (.fromIter 0 (It.ofList [3, 2])), .un 0 .clear, .un 0 (.push 1), .drop 0]
    [.handle 0, .res .unit, .res .unit, .panicked] := by simp [AllSteps, NoPanicInClear]

end Verif.Inline
