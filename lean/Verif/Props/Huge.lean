import Verif.Props.RingHistory
import Verif.Props.RingOps
/-
C82, C93: capacities near `usize::MAX`, which Rust accepts for zero-sized elements. (The model keeps slots distinct, as they are for elements that take
space; for zero-sized ones C82 and C93 are about lengths, results, panics and destructor runs.)
-/
namespace Verif
/-! ### Chunk -/

namespace Machine
variable {A C K0 K1 K2 K3 : Type}
/-- A machine on which some calls do nothing (used for programs that do not make them). -/
def restrict (m : Machine A C K0 K1 K2 K3) (p : K1 → Prop) (q : K3 → Prop) [DecidablePred p] [DecidablePred q] : Machine A C K0 K1 K2 K3 :=
  { m with un := fun k => if p k then m.un k else pure .unit, bin := fun k => if q k then m.bin k else pure .unit }
theorem restrict_run (m : Machine A C K0 K1 K2 K3) (p : K1 → Prop) (q : K3 → Prop) [DecidablePred p] [DecidablePred q] (ops : List (Op K0 K1 K2 K3))
    (h : ∀ op ∈ ops, (∀ i k, op = .un i k → p k) ∧ ∀ i j k, op = .bin i j k → q k) (w : World A C) : (m.restrict p q).run ops w = m.run ops w := by
  induction ops generalizing w with
  | nil => rfl
  | cons op ops ih =>
    have e : ∀ w, (m.restrict p q).step op w = m.step op w := by
      intro w
      have := h op (by simp)
      cases op with
      | un i k => simp only [step, restrict, if_pos (this.1 i k rfl)]
      | bin i j k => simp only [step, restrict, if_pos (this.2 i j k rfl)]
      | _ => rfl
    simp only [run, M.bind_run, e]
    cases m.step op w with
    | ok o w' => simp only [Out.andThen_ok]; rw [ih (fun op h' => h op (by simp [h']))]
    | _ => rfl
end Machine

namespace Chunk
variable {A : Type} {E : Env} {N : Nat} {dp : A → Bool} {cl : A → Option A}

theorem append_wide {c d : Chunk A} {l k : List A} (hN : N + k.length < E.W) (h : Rep N c l) (h' : Rep N d k) :
    Ref (Rep2 N) (append E N (c, d)) (Spec.append N (l, k)) := by
  obtain ⟨h1, h2, h3⟩ := h
  obtain ⟨k1, k2, k3⟩ := h'
  unfold append Ref Spec.append
  simp only
  split
  · vc
    all_goals rep2_done
  · vc
    all_goals rep2_done
theorem drainFromFront_wide (n : Nat) (hN : N + n < E.W) {c d : Chunk A} {l k : List A} (h : Rep N c l) (h' : Rep N d k) :
    Ref (Rep2 N) (drainFromFront E N n (c, d)) (Spec.drainFromFront N n (l, k)) := by
  obtain ⟨h1, h2, h3⟩ := h
  obtain ⟨k1, k2, k3⟩ := h'
  unfold drainFromFront Ref Spec.drainFromFront
  simp only
  split
  · vc
    all_goals rep2_done
  · vc
    all_goals rep2_done
theorem drainFromBack_wide (n : Nat) (hN : N + n < E.W) {c d : Chunk A} {l k : List A} (h : Rep N c l) (h' : Rep N d k) :
    Ref (Rep2 N) (drainFromBack E N n (c, d)) (Spec.drainFromBack N n (l, k)) := by
  obtain ⟨h1, h2, h3⟩ := h
  obtain ⟨k1, k2, k3⟩ := h'
  unfold drainFromBack Ref Spec.drainFromBack
  simp only
  split
  · vc
    all_goals rep2_done
  · vc
    all_goals rep2_done

/-- The calls that C93 covers: all but `append`; the counts that are passed to `insert_from`, `drain_from_front` and `drain_from_back` may not overflow
`usize` when added to the capacity. -/
def Wide (E : Env) (N : Nat) : Op (Ctor A) (Un A) Fork Bin → Prop
  | .un _ (.insertFrom _ n _) => N + n < E.W
  | .bin _ _ (.drainFromFront n) => N + n < E.W
  | .bin _ _ (.drainFromBack n) => N + n < E.W
  | .bin _ _ .append => False
  | _ => True

open Classical in
/-- C93, the part that holds: with every capacity, up to `usize::MAX`, chunks do what bounded lists do, in every history of these calls. -/
theorem C93_history_partial (hN : N < E.W) (ops : List (Op (Ctor A) (Un A) Fork Bin)) (hw : ∀ op ∈ ops, Wide E N op) :
    Ref (WorldRel (View E N)) ((machine E N dp cl).run ops World.empty) ((specMachine E N dp cl).run ops World.empty) := by
  have hv : (View E N : Chunk A → List A → Prop) = Rep N := by
    funext c l; exact propext (asSlice_iff hN)
  let q : Bin → Prop := fun k => match k with | .append => False | .drainFromFront n => N + n < E.W | .drainFromBack n => N + n < E.W
  have hm : MachineRel (Rep N) ((machine E N dp cl).restrict (Un.wide E N) q) ((specMachine E N dp cl).restrict (Un.wide E N) q) :=
    { ctor := fun k log => ctorRel (cl := cl) hN k log
      un := fun k c d log h => by
        simp only [Machine.restrict]
        split
        · exact unRel hN k (by assumption) log h
        · exact ⟨_, rfl, h, rfl⟩
      fork := fun k c d log h => forkRel hN k log h
      bin := fun k c d c' d' log h h' => by
        simp only [Machine.restrict]
        split
        · rename_i hq
          cases k with
          | append => exact hq.elim
          | drainFromFront n => exact both_ref (drainFromFront_wide n hq h h')
          | drainFromBack n => exact both_ref (drainFromBack_wide n hq h h')
        · exact ⟨_, rfl, h, h', rfl⟩
      dtor := fun c d log h => drop_ref dp h log
      born := fun k c d h => by cases k <;> simp [Machine.restrict, machine, specMachine, peek_eq h] }
  have ok : ∀ op ∈ ops, (∀ i k, op = .un i k → k.wide E N) ∧ ∀ i j k, op = .bin i j k → q k := by
    intro op hop
    have := hw op hop
    constructor
    · rintro i k rfl
      cases k with
      | insertFrom i n it => exact .inr this
      | _ => trivial
    · rintro i j k rfl
      cases k <;> exact this
  rw [hv]
  have h := hm.run_ref ops (MachineRel.empty_rel (R := Rep N))
  rwa [Machine.restrict_run _ _ _ _ ok, Machine.restrict_run _ _ _ _ ok] at h

/-- C93, `append`: as on lists if the other chunk's length does not overflow `usize` when added to the capacity. -/
theorem C93_append_partial {c d : Chunk A} {l k : List A} (h : View E N c l) (h' : View E N d k) (hN : N + k.length < E.W) :
    (l.length + k.length ≤ N → ∃ s, append E N (c, d) = .ok () s ∧ View E N s.1 (l ++ k) ∧ View E N s.2 []) ∧
    (N < l.length + k.length → ∃ s, append E N (c, d) = .panic s ∧ View E N s.1 l ∧ View E N s.2 k) := by
  have hr := Ref.view2 (E := E) (append_wide hN ((asSlice_iff (by omega)).1 h) ((asSlice_iff (by omega)).1 h'))
  constructor
  · intro hl
    exact hr.of_ok (a := ()) (t := (l ++ k, [])) (by simp only [Spec.append, if_pos hl])
  · intro hl
    exact hr.of_panic (t := (l, k)) (by simp only [Spec.append]; rw [if_neg (by omega)])

/-- C93, exactly when `append` fails in debug builds: with any capacity up to `usize::MAX`, it does what it does on lists, unless the end of the items plus the
other chunk's length overflows `usize`; it panics then, although there is room, and changes nothing. -/
theorem C93_append_debug_partial {c d : Chunk A} {l k : List A} (hN : N < E.W) (hE : E.debug = true) (h : View E N c l) (h' : View E N d k) :
    (l.length + k.length ≤ N → c.right + k.length < E.W → ∃ s, append E N (c, d) = .ok () s ∧ View E N s.1 (l ++ k) ∧ View E N s.2 []) ∧
    (N < l.length + k.length ∨ E.W ≤ c.right + k.length → append E N (c, d) = .panic (c, d)) := by
  have hr := (asSlice_iff hN).1 h
  have hr' := (asSlice_iff hN).1 h'
  obtain ⟨h1, h2, h3⟩ := hr
  obtain ⟨k1, k2, k3⟩ := hr'
  have e1 : len E c = .ok l.length c := by simp [len, getRight, getLeft, usub, h1]
  have e2 : len E d = .ok k.length d := by simp [len, getRight, getLeft, usub, k1]
  constructor
  · intro hl hw
    have hx : Ref (Rep2 N) (append E N (c, d)) (Spec.append N (l, k)) := by
      unfold append Ref Spec.append
      simp only
      split
      · vc
        all_goals rep2_done
      · omega
    have hv := Ref.view2 (E := E) hx
    exact hv.of_ok (a := ()) (t := (l ++ k, [])) (by simp only [Spec.append, if_pos hl])
  · intro hl
    simp only [append, M.bind_run, M.onFst_run, M.onSnd_run, e1, e2, Out.mapState_ok, Out.andThen_ok, getRight]
    by_cases hs : l.length + k.length < E.W
    · by_cases hgt : l.length + k.length > N
      · simp [uadd, hs, M.panicIf, hgt]
      · have hw : ¬ c.right + k.length < E.W := by omega
        simp [uadd, hs, M.panicIf, hgt, hw, hE]
    · simp [uadd, hs, hE]

/-- C93 fails: in a debug build `append` of one item to a `Chunk<(), { usize::MAX }>` that holds one item panics, because the item it holds is at the
right end (it was pushed at the front) and `right + other.len()` overflows. -/
theorem C93_append_counterexample :
    let prog : List (Op (Ctor Unit) (Un Unit) Fork Bin) := [.ctor .new, .un 0 (.pushFront ()), .ctor .new, .un 1 (.pushBack ()), .un 0 .len, .bin 0 1 .append, .un 0 .len]
    ((machine dbg64 (2 ^ 64 - 1) (fun _ => false) some).run prog World.empty).seen =
      some [.handle 0, .res .unit, .handle 1, .res .unit, .res (.nat 1), .panicked, .res (.nat 1)] ∧
    ((specMachine dbg64 (2 ^ 64 - 1) (fun _ => false) some).run prog World.empty).seen =
      some [.handle 0, .res .unit, .handle 1, .res .unit, .res (.nat 1), .res .unit, .res (.nat 2)] := by decide +kernel

/-- C93 is not vacuous: a history of covered calls with the largest capacity. -/
example : (∀ op ∈ ([.ctor .new, .un 0 (.pushFront ()), .un 0 (.pushBack ()), .un 0 (.insert 1 ()), .un 0 .len] : List (Op (Ctor Unit) (Un Unit) Fork Bin)),
      Wide dbg64 (2 ^ 64 - 1) op) ∧
    ((machine dbg64 (2 ^ 64 - 1) (fun _ => false) some).run [.ctor .new, .un 0 (.pushFront ()), .un 0 (.pushBack ()), .un 0 (.insert 1 ()), .un 0 .len] World.empty).seen =
      some [.handle 0, .res .unit, .res .unit, .res .unit, .res (.nat 3)] := ⟨by simp [Wide], by decide +kernel⟩
end Chunk

namespace Ring
open Chunk (dbg64 rel64)
variable {A : Type} {E : Env} {N : Nat} {c : Ring A} {l : List A}

/-- C82 fails: in a debug build the third push on a `RingBuffer<(), { usize::MAX }>` panics although the buffer is all but empty, because
`origin + length` overflows.  (A release build takes it.) -/
theorem C82_huge_capacity_counterexample :
    let prog : List (Op (Ctor Unit) (Un Unit) Fork Bin) := [.ctor .new, .un 0 (.pushFront ()), .un 0 (.pushBack ()), .un 0 .isFull, .un 0 (.pushBack ()), .un 0 .len]
    ((machine dbg64 (2 ^ 64 - 1) (fun _ => false) some).run prog World.empty).seen =
      some [.handle 0, .res .unit, .res .unit, .res (.bool false), .panicked, .res (.nat 2)] ∧
    ((machine rel64 (2 ^ 64 - 1) (fun _ => false) some).run prog World.empty).seen =
      some [.handle 0, .res .unit, .res .unit, .res (.bool false), .res .unit, .res (.nat 3)] := by decide +kernel

/-- C82, the part that holds: with a capacity of at most `isize::MAX` (so for every element type that is not zero-sized), a push on a buffer that is
not full succeeds, in every build. -/
theorem C82_push_partial (hN : N ≤ E.W / 2 - 1) (hW : 0 < E.W) (h : View E N c l) (hl : l.length < N) (v : A) :
    Returns (View E N) (pushBack E N v c) () (l ++ [v]) ∧ Returns (View E N) (pushFront E N v c) () (v :: l) :=
  ⟨C28_push_back (by omega) h hl v, C28_push_front (by omega) h hl v⟩

example : View dbg64 3 seam [10, 20] ∧ 3 ≤ dbg64.W / 2 - 1 := ⟨⟨rfl, by decide, by decide⟩, by decide⟩
end Ring
end Verif
