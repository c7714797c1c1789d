import Verif.Chunk.View
/-
Properties of whole histories of `Chunk` calls: C01, C02, C03, C14.
-/
namespace Verif.Chunk
variable {A : Type} {E : Env} {N : Nat} {dp : A → Bool} {cl : A → Option A}

/-- A 64-bit debug build. -/
def dbg64 : Env := ⟨2 ^ 64, true⟩
/-- A 64-bit release build. -/
def rel64 : Env := ⟨2 ^ 64, false⟩

/-- C01. For every history of `Chunk` calls on any number of chunks, running the code and running the same
history on plain lists bounded by `N` gives the same observations (returned values, panics, destructor runs), and
afterwards every chunk shows, through `as_slice`, exactly its list. -/
theorem C01_history_refines_bounded_lists (hN : 2 * N < E.W) (ops : List (Op (Ctor A) (Un A) Fork Bin)) :
    Ref (WorldRel (View E N)) ((machine E N dp cl).run ops World.empty) ((specMachine E N dp cl).run ops World.empty) :=
  (machineRelView hN).run_ref ops MachineRel.empty_rel

/-- C01, continued from any state: the same from any two worlds whose chunks show the lists. -/
theorem C01_history_refines_from (hN : 2 * N < E.W) (ops : List (Op (Ctor A) (Un A) Fork Bin))
    {w : World A (Chunk A)} {v : World A (List A)} (h : WorldRel (View E N) w v) :
    Ref (WorldRel (View E N)) ((machine E N dp cl).run ops w) ((specMachine E N dp cl).run ops v) :=
  (machineRelView hN).run_ref ops h

/-- A history: fill at the back, take from the front, push on both sides (forcing a re-centring), look. -/
def demo : List (Op (Ctor Nat) (Un Nat) Fork Bin) :=
  [.ctor .new, .un 0 (.pushBack 1), .un 0 (.pushBack 2), .un 0 (.pushBack 3), .un 0 (.pushBack 4), .un 0 .popFront,
   .un 0 (.pushBack 5), .un 0 .asSlice, .fork 0 (.splitOff 1), .bin 1 0 .append, .un 1 .asSlice, .un 0 .popBack]

/-- C01 is not vacuous: the demo history runs, refuses the fourth push, re-centres, and shows the expected slices. -/
example : ((machine dbg64 3 (fun _ => false) (fun a => some a)).run demo World.empty).seen
    = some [.handle 0, .res .unit, .res .unit, .res .unit, .panicked, .res (.val 1), .res .unit,
        .res (.refs [2, 3, 5]), .handle 1, .res .unit, .res (.refs [3, 5, 2]), .panicked] := by decide +kernel

/-- C02. After any history the slice of every live chunk has at most `N` items, `len()` is its length,
`is_empty()` says whether it is empty and `is_full()` whether it has exactly `N` items. -/
theorem C02_length_and_flags (hN : 2 * N < E.W) {c : Chunk A} (h : Reachable E N dp cl c) :
    ∃ l, View E N c l ∧ l.length ≤ N ∧ len E c = .ok l.length c ∧ isEmpty c = .ok (decide (l = [])) c ∧
      isFull N c = .ok (decide (l.length = N)) c := by
  obtain ⟨l, hl⟩ := h.view hN
  have hr := hl.rep hN
  refine ⟨l, hl, hr.length_le, len_eq hr, ?_, isFull_eq hr⟩
  rw [isEmpty_eq hr]; cases l <;> simp

/-- C02 is not vacuous: a full chunk is reachable. -/
example : Reachable dbg64 2 (fun _ => false) (fun a => some a) (⟨0, 2, (Mem.uninit.put 0 7).put 1 8⟩ : Chunk Nat) :=
  ⟨[.ctor (.pair 7 8)], _, _, 0, rfl, rfl⟩

/-- C03. No history of `Chunk` calls reaches undefined behaviour (a read of an unwritten slot or an access outside
`0..N`) or an infinite loop, in either build mode; it only goes on, or stops with an abort because a destructor
panicked during unwinding. -/
theorem C03_no_undefined_behaviour (hN : 2 * N < E.W) (ops : List (Op (Ctor A) (Un A) Fork Bin)) :
    (machine E N dp cl).run ops World.empty ≠ .ub ∧ (machine E N dp cl).run ops World.empty ≠ .diverge := by
  have h := C01_history_refines_bounded_lists (dp := dp) (cl := cl) hN ops
  constructor <;> intro e <;> rw [e] at h <;> exact h

/-- C03, second half: a history in which no destructor panics always runs to its end (every call returns or
panics; the process never aborts). -/
theorem C03_history_completes (hN : 2 * N < E.W) (hd : ∀ a, dp a = false)
    (ops : List (Op (Ctor A) (Un A) Fork Bin)) :
    ∃ os w, (machine E N dp cl).run ops World.empty = .ok os w :=
  (machineRel hN).run_total (specTotal hd) ops MachineRel.empty_rel

/-- C03 is not vacuous: histories with any operations are covered, here one with a refused bulk insertion. -/
example : ((machine rel64 2 (fun _ => false) (fun a => some a)).run
    [.ctor (.pair 1 2), .un 0 (.insertFrom 1 5 (It.ofList [7, 7, 7, 7, 7])), .un 0 .asSlice] World.empty).seen
    = some [.handle 0, .panicked, .res (.refs [1, 2])] := by decide +kernel

/-- C14, at every point of a history: what was moved in (or made by cloning) is exactly what was handed back, was
destroyed, or is still stored in a live chunk.  Conditions (`terms`): no `drop_left`, `drop_right` or `clear` call panicked
(C15), writes through `&mut` only rearrange items, and no `insert_from` call panicked because its iterator was short or
because a surplus item's destructor panicked. Destructors may panic elsewhere. -/
theorem C14_conservation [DecidableEq A] (hN : 2 * N < E.W) (ops : List (Op (Ctor A) (Un A) Fork Bin))
    {os : List (Obs A)} {w : World A (Chunk A)}
    (hr : (machine E N dp cl).run ops World.empty = .ok os w)
    (hg : AllSteps (terms dp).Accounted ops os) (hh : AllSteps (terms dp).Keeps ops os) :
    (inputs.ofRun ops os ++ w.made).Perm (outsOf os ++ w.log ++ w.live (peek E N)) := by
  obtain ⟨leak, hl, hp⟩ := conservation (machineRel hN) specBalanced (fun c d h => peek_eq h) ops hr hg
  rw [hl hh, List.append_nil] at hp
  exact hp

/-- C14. When everything has been dropped in the end, the elements moved in (or made by cloning) are exactly
those handed back plus those destroyed: nothing leaks, nothing is dropped twice. -/
theorem C14_every_element_once [DecidableEq A] (hN : 2 * N < E.W) (ops : List (Op (Ctor A) (Un A) Fork Bin))
    {os : List (Obs A)} {w : World A (Chunk A)}
    (hr : (machine E N dp cl).run ops World.empty = .ok os w)
    (hg : AllSteps (terms dp).Accounted ops os) (hh : AllSteps (terms dp).Keeps ops os)
    (hend : ∀ h, w.heap h = none) :
    (inputs.ofRun ops os ++ w.made).Perm (outsOf os ++ w.log) := by
  have h := C14_conservation hN ops hr hg hh
  have : w.live (peek E N) = [] := by
    unfold World.live
    generalize w.next = n
    induction n with
    | zero => rfl
    | succ n ih => simp [liveItems, ih, hend]
  rwa [this, List.append_nil] at h

/-- C14 (and C10), even with dishonest `insert_from` iterators: if the elements moved in and made are pairwise
distinct, then no element is ever destroyed, handed back, or still stored more than once in total. -/
theorem C14_never_twice [DecidableEq A] (hN : 2 * N < E.W) (ops : List (Op (Ctor A) (Un A) Fork Bin))
    {os : List (Obs A)} {w : World A (Chunk A)} (hr : (machine E N dp cl).run ops World.empty = .ok os w)
    (hg : AllSteps (terms dp).Accounted ops os)
    (hd : (inputs.ofRun ops os ++ w.made).Nodup) :
    (outsOf os ++ w.log ++ w.live (peek E N)).Nodup := by
  obtain ⟨leak, hl, hp⟩ := conservation (machineRel hN) specBalanced (fun c d h => peek_eq h) ops hr hg
  exact ((hp.nodup_iff).1 hd).sublist (List.sublist_append_left _ _)

/-- A history with a refused push, a clone, an early-abandoned iteration and a short `insert_from`. -/
def demo2 : List (Op (Ctor Nat) (Un Nat) Fork Bin) :=
  [.ctor (.pair 1 2), .un 0 (.pushBack 3), .un 0 .next, .fork 0 .clone, .un 1 (.insertFrom 0 1 (It.ofList [4, 5])),
   .drop 0, .drop 1]

/-- C14 is not vacuous: the hypotheses hold for `demo2`, which runs to the end and destroys everything. -/
example : ∀ os : List (Obs Nat), AllSteps (terms (fun _ => false)).Accounted demo2 os ∧ AllSteps (terms (fun _ => false)).Keeps demo2 os := by
  intro os
  constructor <;>
    · apply AllSteps.of_forall
      intro op h
      simp only [demo2, List.mem_cons, List.not_mem_nil, or_false] at h
      rcases h with rfl | rfl | rfl | rfl | rfl | rfl | rfl <;> simp [Terms.Accounted, Terms.Keeps, terms, It.ofList, It.items]
example : ((machine dbg64 2 (fun _ => false) (fun a => some (a + 10))).run demo2 World.empty).seen
      = some [.handle 0, .panicked, .res (.opt (some 1)), .handle 1, .res .unit, .res .unit, .res .unit] ∧
    (((machine dbg64 2 (fun _ => false) (fun a => some (a + 10))).run demo2 World.empty).final.map
      (fun w => (w.log, w.made, w.next, w.heap 0 |>.isNone, w.heap 1 |>.isNone)))
      = some ([3, 5, 2, 4, 12], [12], 2, true, true) := by
  refine ⟨by decide +kernel, by decide +kernel⟩

end Verif.Chunk
