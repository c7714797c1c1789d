import Verif.Ring.View
import Verif.Props.ChunkHistory
/-
Properties of whole histories of `RingBuffer` calls: C24, C25, C26, C34.
-/
namespace Verif.Ring
open Verif.Chunk (dbg64 rel64)
variable {A : Type} {E : Env} {N : Nat} {dp : A → Bool} {cl : A → Option A}

/-- C24. For every history of `RingBuffer` calls on any number of buffers, running the code and running the same history
on plain lists bounded by `N` gives the same observations (returned values, panics, destructor runs), and afterwards
every buffer shows, through `iter`, exactly its list.  Calls the client refrains from: see `machine`. -/
theorem C24_history_refines_bounded_lists (hN : 0 < N) (hW : 2 * N < E.W) (ops : List (Op (Ctor A) (Un A) Fork Bin)) :
    Ref (WorldRel (View E N)) ((machine E N dp cl).run ops World.empty) ((specMachine E N dp cl).run ops World.empty) :=
  (machineRelView hN hW).run_ref ops MachineRel.empty_rel

/-- C24, continued from any state: the same from any two worlds whose buffers show the lists, wherever the origins are. -/
theorem C24_history_refines_from (hN : 0 < N) (hW : 2 * N < E.W) (ops : List (Op (Ctor A) (Un A) Fork Bin))
    {w : World A (Ring A)} {v : World A (List A)} (h : WorldRel (View E N) w v) :
    Ref (WorldRel (View E N)) ((machine E N dp cl).run ops w) ((specMachine E N dp cl).run ops v) :=
  (machineRelView hN hW).run_ref ops h

/-- A history: the origin wanders below zero, the contents wrap, items are inserted and removed in the middle, a slice is
written through. -/
def demo : List (Op (Ctor Nat) (Un Nat) Fork Bin) :=
  [.ctor .new, .un 0 (.pushBack 1), .un 0 (.pushFront 2), .un 0 (.pushBack 3), .un 0 (.insert 1 9), .un 0 (.pushBack 4), .un 0 .items,
   .un 0 (.remove 2), .un 0 (.slice (.included 1) .unbounded [.right 1] (.set 0 8)), .un 0 .items,
   .un 0 (.slice (.included 1) (.excluded 9) [] .len), .fork 0 (.splitOff 1), .bin 1 0 .append, .un 1 .items, .un 0 .popBack]

/-- C24 is not vacuous: the demo history runs and shows the expected sequences. -/
example : ((machine dbg64 4 (fun _ => false) (fun a => some a)).run demo World.empty).seen
    = some [.handle 0, .res .unit, .res .unit, .res .unit, .res .unit, .panicked, .res (.refs [2, 9, 1, 3]),
        .res (.val 1), .res (.val 3), .res (.refs [2, 9, 8]), .panicked, .handle 1, .res .unit, .res (.refs [9, 8, 2]),
        .res (.opt none)] := by decide +kernel

/-- C25. After any history every live buffer has at most `N` items, `len()` is their number, `is_empty()`/`is_full()` say
whether there are none or exactly `N`, `get(i)` is the `i`-th item or nothing, and indexing gives the `i`-th item or panics. -/
theorem C25_length_and_access (hN : 0 < N) (hW : 2 * N < E.W) {c : Ring A} (h : Reachable E N dp cl c) :
    ∃ l, View E N c l ∧ l.length ≤ N ∧ getLen c = .ok l.length c ∧ isEmpty c = .ok (decide (l = [])) c ∧
      isFull N c = .ok (decide (l.length = N)) c ∧ (∀ i, get E N i c = .ok l[i]? c) ∧
      (∀ i, (hi : i < l.length) → Returns (View E N) (index E N i c) l[i] l) ∧
      (∀ i, l.length ≤ i → ∃ s, index E N i c = .panic s ∧ View E N s l) := by
  obtain ⟨l, hl⟩ := h.view hN hW
  have hr := hl.rep hW
  refine ⟨l, hl, hr.le, getLen_eq hr, ?_, isFull_eq hr, get_eq hW hr, ?_, ?_⟩
  · rw [isEmpty_eq hr]; cases l <;> simp
  · intro i hi
    exact (Ref.view hW (index_ref hW hr i)).of_ok (by unfold Spec.index; rw [List.getElem?_eq_getElem hi])
  · intro i hi
    exact (Ref.view hW (index_ref hW hr i)).of_panic (by unfold Spec.index; rw [List.getElem?_eq_none hi])

/-- C25 is not vacuous: a full, wrapped buffer is reachable. -/
example : Reachable dbg64 2 (fun _ => false) (fun a => some a) (⟨1, 2, (Mem.uninit.put 0 7).put 1 8⟩ : Ring Nat) :=
  ⟨[.ctor (.unit 7), .un 0 (.pushFront 8)], _, _, 0, rfl, rfl⟩
example : ∃ s, items dbg64 2 (⟨1, 2, (Mem.uninit.put 0 7).put 1 8⟩ : Ring Nat) = .ok [8, 7] s := ⟨_, rfl⟩

/-- C26. No history of `RingBuffer` calls with `N > 0` reaches undefined behaviour (a read of an unwritten slot or an access
outside `0..N`) or an infinite loop, in either build mode; it only goes on, or stops with an abort because a destructor
panicked during unwinding. -/
theorem C26_no_undefined_behaviour (hN : 0 < N) (hW : 2 * N < E.W) (ops : List (Op (Ctor A) (Un A) Fork Bin)) :
    (machine E N dp cl).run ops World.empty ≠ .ub ∧ (machine E N dp cl).run ops World.empty ≠ .diverge := by
  have h := C24_history_refines_bounded_lists (dp := dp) (cl := cl) hN hW ops
  constructor <;> intro e <;> rw [e] at h <;> exact h

/-- C26, second half: a history in which no destructor panics always runs to its end. -/
theorem C26_history_completes (hN : 0 < N) (hW : 2 * N < E.W) (hd : ∀ a, dp a = false)
    (ops : List (Op (Ctor A) (Un A) Fork Bin)) :
    ∃ os w, (machine E N dp cl).run ops World.empty = .ok os w :=
  (machineRel hN hW).run_total (specTotal hd) ops MachineRel.empty_rel

/-- C26 is not vacuous: a history with a refused bulk insertion and one with an iterator that stops early. -/
example : ((machine rel64 2 (fun _ => false) (fun a => some a)).run
    [.ctor (.pair 1 2), .un 0 (.insertFrom 1 5 (It.ofList [7, 7, 7, 7, 7])), .un 0 .items, .un 0 .popFront,
     .un 0 (.insertFrom 0 1 []), .un 0 .items] World.empty).seen
    = some [.handle 0, .panicked, .res (.refs [1, 2]), .res (.opt (some 1)), .panicked, .res (.refs [])] := by decide +kernel

/-- C34, at every point of a history: what was moved in (or made by cloning) is exactly what was handed back, was destroyed, or
is still stored in a live buffer.  Conditions (`terms`): no `drop_left`, `drop_right` or `clear` call panicked (C35), no buffer's own
drop panicked, writes through `&mut` only rearrange items, and no `insert_from` call panicked because its iterator was short or
because a surplus item's destructor panicked. Destructors may panic elsewhere. -/
theorem C34_conservation [DecidableEq A] (hN : 0 < N) (hW : 2 * N < E.W) (ops : List (Op (Ctor A) (Un A) Fork Bin))
    {os : List (Obs A)} {w : World A (Ring A)}
    (hr : (machine E N dp cl).run ops World.empty = .ok os w)
    (hg : AllSteps (terms dp).Accounted ops os) (hh : AllSteps (terms dp).Keeps ops os) :
    (inputs.ofRun ops os ++ w.made).Perm (outsOf os ++ w.log ++ w.live (peek E N)) := by
  obtain ⟨leak, hl, hp⟩ := conservation (machineRel hN hW) specBalanced (fun c d h => peek_eq hW h) ops hr hg
  rw [hl hh, List.append_nil] at hp
  exact hp

/-- C34. When everything has been dropped in the end, the elements moved in (or made by cloning) are exactly those handed back plus
those destroyed: nothing leaks, nothing is dropped twice. -/
theorem C34_every_element_once [DecidableEq A] (hN : 0 < N) (hW : 2 * N < E.W) (ops : List (Op (Ctor A) (Un A) Fork Bin))
    {os : List (Obs A)} {w : World A (Ring A)}
    (hr : (machine E N dp cl).run ops World.empty = .ok os w)
    (hg : AllSteps (terms dp).Accounted ops os) (hh : AllSteps (terms dp).Keeps ops os)
    (hend : ∀ h, w.heap h = none) :
    (inputs.ofRun ops os ++ w.made).Perm (outsOf os ++ w.log) := by
  have h := C34_conservation hN hW ops hr hg hh
  have : w.live (peek E N) = [] := by
    unfold World.live
    generalize w.next = n
    induction n with
    | zero => rfl
    | succ n ih => simp [liveItems, ih, hend]
  rwa [this, List.append_nil] at h

/-- C34 (and C32), even with dishonest iterators and panicking drops: if the elements moved in and made are pairwise
distinct, then no element is ever destroyed, handed back, or still stored more than once in total. -/
theorem C34_never_twice [DecidableEq A] (hN : 0 < N) (hW : 2 * N < E.W) (ops : List (Op (Ctor A) (Un A) Fork Bin))
    {os : List (Obs A)} {w : World A (Ring A)} (hr : (machine E N dp cl).run ops World.empty = .ok os w)
    (hg : AllSteps (terms dp).Accounted ops os)
    (hd : (inputs.ofRun ops os ++ w.made).Nodup) :
    (outsOf os ++ w.log ++ w.live (peek E N)).Nodup := by
  obtain ⟨leak, hl, hp⟩ := conservation (machineRel hN hW) specBalanced (fun c d h => peek_eq hW h) ops hr hg
  exact ((hp.nodup_iff).1 hd).sublist (List.sublist_append_left _ _)

/-- A history with a refused push, a clone, an early-abandoned iteration, a slice copied out and an `insert_from`. -/
def demo2 : List (Op (Ctor Nat) (Un Nat) Fork Bin) :=
  [.ctor (.pair 1 2), .un 0 (.pushBack 3), .un 0 .next, .fork 0 .clone, .un 1 (.insertFrom 0 1 (It.ofList [4, 5])),
   .fork 1 (.toOwned (.included 1) .unbounded []), .drop 0, .drop 1, .drop 2]

/-- C34 is not vacuous: the hypotheses hold for `demo2`, which runs to the end and destroys everything. -/
example : ∀ os : List (Obs Nat), AllSteps (terms (fun _ => false)).Accounted demo2 os := by
  intro os
  apply AllSteps.of_forall
  intro op h
  simp only [demo2, List.mem_cons, List.not_mem_nil, or_false] at h
  rcases h with rfl | rfl | rfl | rfl | rfl | rfl | rfl | rfl | rfl <;> simp [Terms.Accounted, terms]
example : AllSteps (A := Nat) (terms (fun _ => false)).Keeps demo2
    [.handle 0, .panicked, .res (.opt (some 1)), .handle 1, .res .unit, .handle 2, .res .unit, .res .unit, .res .unit] := by
  simp [demo2, AllSteps, Terms.Keeps, terms, It.ofList, It.items, Obs.panic]
example : ((machine dbg64 2 (fun _ => false) (fun a => some (a + 10))).run demo2 World.empty).seen
      = some [.handle 0, .panicked, .res (.opt (some 1)), .handle 1, .res .unit, .handle 2, .res .unit, .res .unit, .res .unit] ∧
    (((machine dbg64 2 (fun _ => false) (fun a => some (a + 10))).run demo2 World.empty).final.map
      (fun w => (w.log, w.made, w.next, w.heap 0 |>.isNone, w.heap 1 |>.isNone, w.heap 2 |>.isNone)))
      = some ([3, 5, 2, 4, 12, 22], [12, 22], 3, true, true, true) := by
  refine ⟨by decide +kernel, by decide +kernel⟩

end Verif.Ring
