import Verif.Spec
import Verif.Chunk.Model
/-
Helper lemmas for `Chunk`: the storage invariant and the refinement of each operation to the list
specification.  The property theorems are in `Verif/Props`.
-/
namespace Verif

section rules
variable {σ α A : Type} {dp : A → Bool} {Q : Unit → σ × List A → Prop} {P : σ × List A → Prop} {B : Prop}
theorem Sat.dropSlice {l : List A} {s : σ} {log : List A}
    (h0 : l.countP dp = 0 → Q () (s, log ++ l)) (h1 : l.countP dp = 1 → P (s, log ++ l))
    (h2 : 2 ≤ l.countP dp → B) : Sat (dropSlice dp l (s, log)) Q P B := by
  unfold Verif.dropSlice
  split <;> simp_all [Sat]
  apply h2
  rename_i h3 h4
  have a1 : List.countP dp l ≠ 0 := by simpa using h3
  have a2 : List.countP dp l ≠ 1 := by simpa using h4
  omega
theorem Sat.dropOne {a : A} {s : σ} {log : List A}
    (h0 : dp a = false → Q () (s, log ++ [a])) (h1 : dp a = true → P (s, log ++ [a])) :
    Sat (dropOne dp a (s, log)) Q P B := by
  unfold Verif.dropOne
  split <;> simp_all [Sat]
end rules

namespace Chunk
variable {A : Type} {E : Env} {N : Nat}

/-- What it means for the storage to hold the list `l`. -/
structure Rep (N : Nat) (c : Chunk A) (l : List A) : Prop where
  right_eq : c.right = c.left + l.length
  le : c.right ≤ N
  cell : ∀ j, c.left ≤ j → j < c.right → c.mem j = l[j - c.left]?

section rules
variable {B : Prop} {P : Chunk A → Prop} {c : Chunk A}
theorem sat_getLeft {Q : Nat → Chunk A → Prop} (h : Q c.left c) : Sat (getLeft c) Q P B := h
theorem sat_getRight {Q : Nat → Chunk A → Prop} (h : Q c.right c) : Sat (getRight c) Q P B := h
theorem sat_getMem {Q : Mem A → Chunk A → Prop} (h : Q c.mem c) : Sat (getMem c) Q P B := h
theorem sat_setLeft {Q : Unit → Chunk A → Prop} {x : Nat} (h : Q () { c with left := x }) :
    Sat (setLeft x c) Q P B := h
theorem sat_setRight {Q : Unit → Chunk A → Prop} {x : Nat} (h : Q () { c with right := x }) :
    Sat (setRight x c) Q P B := h
theorem sat_setMem {Q : Unit → Chunk A → Prop} {x : Mem A} (h : Q () { c with mem := x }) :
    Sat (setMem x c) Q P B := h
theorem sat_len {Q : Nat → Chunk A → Prop} (h0 : c.left ≤ c.right) (h : Q (c.right - c.left) c) :
    Sat (len E c) Q P B := by
  simp [len, getLeft, getRight, usub_ok h0]; exact h
theorem sat_isEmpty {Q : Bool → Chunk A → Prop} (h : Q (decide (c.left = c.right)) c) :
    Sat (isEmpty c) Q P B := h
theorem sat_isFull {Q : Bool → Chunk A → Prop} (h : Q (decide (c.left = 0 ∧ c.right = N)) c) :
    Sat (isFull N c) Q P B := h
theorem sat_forceRead {Q : A → Chunk A → Prop} {i : Nat} {v : A} (hi : i < N) (hm : c.mem i = some v)
    (h : Q v c) : Sat (forceRead N i c) Q P B := by
  simp [forceRead, getMem, memRead_ok hi hm]; exact h
theorem sat_forceWrite {Q : Unit → Chunk A → Prop} {i : Nat} {v : A} (hi : i < N)
    (h : Q () { c with mem := c.mem.put i v }) : Sat (forceWrite N i v c) Q P B := by
  simp [forceWrite, getMem, setMem, memWrite_ok hi]; exact h
theorem blit_zero (m d : Mem A) (f t : Nat) : m.blit f d t 0 = d := by
  funext j; simp [Mem.blit]; omega
theorem sat_forceCopy {Q : Unit → Chunk A → Prop} {f t n : Nat} (hi : n = 0 ∨ (f + n ≤ N ∧ t + n ≤ N))
    (h : Q () { c with mem := c.mem.blit f c.mem t n }) : Sat (forceCopy N f t n c) Q P B := by
  unfold forceCopy
  by_cases hn : n > 0
  · have h1 : f + n ≤ N := by omega
    have h2 : t + n ≤ N := by omega
    simp [hn, getMem, setMem, memCopy_ok h1 h2]; exact h
  · have : n = 0 := by omega
    subst this
    rw [blit_zero] at h
    simp; exact h
theorem sat_forceCopyTo {Q : Unit → Chunk A × Chunk A → Prop} {P : Chunk A × Chunk A → Prop} {f t n : Nat}
    {d : Chunk A} (hi : n = 0 ∨ (f + n ≤ N ∧ t + n ≤ N))
    (h : Q () (c, { d with mem := c.mem.blit f d.mem t n })) : Sat (forceCopyTo N f t n (c, d)) Q P B := by
  unfold forceCopyTo
  by_cases hn : n > 0
  · have h1 : f + n ≤ N := by omega
    have h2 : t + n ≤ N := by omega
    simp [hn, getMem, setMem, memCopy_ok h1 h2]; exact h
  · have : n = 0 := by omega
    subst this
    rw [blit_zero] at h
    simp; exact h
theorem sat_swapped {σ τ α : Type} {x : M (τ × σ) α} {s : σ} {t : τ} {Q : α → σ × τ → Prop} {P : σ × τ → Prop}
    (h : Sat (x (t, s)) (fun a p => Q a (p.2, p.1)) (fun p => P (p.2, p.1)) B) : Sat (swapped x (s, t)) Q P B := by
  unfold swapped
  cases hx : x (t, s) <;> simp_all [Sat]
theorem sat_withNew {α : Type} {x : M (Chunk A × Chunk A) α} {Q : Chunk A → Chunk A → Prop}
    (h : Sat (x (c, new)) (fun _ s => Q s.2 s.1) (fun s => P s.1) B) : Sat (withNew x c) Q P B := by
  unfold withNew
  cases hx : x (c, new) <;> simp_all [Sat]
theorem sat_asSlice {Q : List A → Chunk A → Prop} {l : List A} (hr : Rep N c l) (h : Q l c) :
    Sat (asSlice E N c) Q P B := by
  obtain ⟨h1, h2, h3⟩ := hr
  have h0 : c.left ≤ c.right := by omega
  have h4 : c.left + (c.right - c.left) ≤ N := by omega
  have h5 : c.mem.collect c.left (c.right - c.left) = some l := by
    rw [Mem.collect_eq_some]
    refine ⟨by omega, ?_⟩
    intro i hi
    rw [h3 _ (by omega) (by omega)]; congr 1; omega
  simp [asSlice, len, getLeft, getRight, getMem, usub_ok h0, memSlice, h4, h5]; exact h
end rules

macro_rules | `(tactic| vc_rule) => `(tactic| with_reducible refine sat_withNew ?_)
macro_rules | `(tactic| vc_rule) => `(tactic| with_reducible refine sat_swapped ?_)
macro_rules | `(tactic| vc_rule) => `(tactic| with_reducible refine sat_forceCopyTo (by vc_side) ?_)
macro_rules | `(tactic| vc_rule) => `(tactic| with_reducible refine sat_forceCopy (by vc_side) ?_)
macro_rules | `(tactic| vc_rule) => `(tactic| with_reducible refine sat_forceWrite (by vc_side) ?_)
macro_rules | `(tactic| vc_rule) => `(tactic| with_reducible refine sat_isFull ?_)
macro_rules | `(tactic| vc_rule) => `(tactic| with_reducible refine sat_isEmpty ?_)
macro_rules | `(tactic| vc_rule) => `(tactic| with_reducible refine sat_len (by vc_side) ?_)
macro_rules | `(tactic| vc_rule) => `(tactic| with_reducible refine sat_setMem ?_)
macro_rules | `(tactic| vc_rule) => `(tactic| with_reducible refine sat_getMem ?_)
macro_rules | `(tactic| vc_rule) => `(tactic| with_reducible refine sat_setRight ?_)
macro_rules | `(tactic| vc_rule) => `(tactic| with_reducible refine sat_setLeft ?_)
macro_rules | `(tactic| vc_rule) => `(tactic| with_reducible refine sat_getRight ?_)
macro_rules | `(tactic| vc_rule) => `(tactic| with_reducible refine sat_getLeft ?_)

/-- The slice seen through `Deref` is `l` exactly when the storage holds `l`. -/
theorem asSlice_iff (hN : N < E.W) {c : Chunk A} {l : List A} : asSlice E N c = .ok l c ↔ Rep N c l := by
  constructor
  · intro h
    simp only [asSlice, len, getLeft, getRight, getMem, M.bind_run, Out.andThen_ok, usub, M.ite_run, M.pure_run,
      M.panic_run] at h
    by_cases h0 : c.left ≤ c.right
    · simp only [if_pos h0, Out.andThen_ok, memSlice, M.ite_run] at h
      by_cases h1 : c.left + (c.right - c.left) ≤ N
      · rw [if_pos h1] at h
        cases h2 : c.mem.collect c.left (c.right - c.left) with
        | none => rw [h2] at h; simp at h
        | some l' =>
          rw [h2] at h; simp at h; subst h
          rw [Mem.collect_eq_some] at h2
          refine ⟨by omega, by omega, ?_⟩
          intro j h3 h4
          have := h2.2 (j - c.left) (by omega)
          rw [← this]; congr 1; omega
      · rw [if_neg h1] at h; simp at h
    · rw [if_neg h0] at h
      by_cases h1 : E.debug = true
      · rw [if_pos h1] at h; simp at h
      · have h2 : ¬ c.left + (c.right + E.W - c.left) ≤ N := by omega
        rw [if_neg h1] at h
        simp only [Out.andThen_ok, memSlice, M.ite_run, if_neg h2, M.ub_run] at h
        cases h
  · intro h
    have := sat_asSlice (E := E) (Q := fun l' c' => l' = l ∧ c' = c) (P := fun _ => False) (B := False) h ⟨rfl, rfl⟩
    cases hx : asSlice E N c <;> rw [hx] at this <;> simp [Sat] at this
    obtain ⟨rfl, rfl⟩ := this; rfl

theorem Rep.new : Rep N (new : Chunk A) [] := by
  constructor <;> simp [Chunk.new]

theorem Rep.length_le {c : Chunk A} {l : List A} (h : Rep N c l) : l.length ≤ N := by
  have := h.right_eq; have := h.le; omega

/-- Close a final goal: the specification's outcome is forced, the storage invariant is decided by cases. -/
macro "rep" : tactic => `(tactic| (constructor <;> grind [Mem.put, Mem.blit, Mem.putList]))
macro "rep_done" : tactic => `(tactic| (refine ⟨_, rfl, ?_⟩; rep))

theorem pushBack_ref (hN : N < E.W) {c : Chunk A} {l : List A} (h : Rep N c l) (v : A) :
    Ref (Rep N) (pushBack E N v c) (Spec.pushBack N v l) := by
  obtain ⟨h1, h2, h3⟩ := h
  unfold pushBack Ref Spec.pushBack
  split
  · vc
    all_goals rep_done
  · vc
    all_goals rep_done

theorem pushFront_ref {c : Chunk A} {l : List A} (h : Rep N c l) (v : A) :
    Ref (Rep N) (pushFront E N v c) (Spec.pushFront N v l) := by
  obtain ⟨h1, h2, h3⟩ := h
  unfold pushFront Ref Spec.pushFront
  split
  · vc
    all_goals rep_done
  · vc
    all_goals rep_done

theorem popFront_ref (hN : N < E.W) {c : Chunk A} {l : List A} (h : Rep N c l) :
    Ref (Rep N) (popFront E N c) (Spec.popFront l) := by
  obtain ⟨h1, h2, h3⟩ := h
  unfold popFront Ref Spec.popFront
  cases l with
  | nil =>
    simp only [List.length_nil, Nat.add_zero] at h1
    vc
    all_goals rep_done
  | cons a r =>
    have := h3 c.left (by omega) (by grind)
    simp only [List.length_cons] at h1
    simp at this
    vc
    refine sat_forceRead (by omega) this ?_
    vc
    all_goals rep_done

theorem popBack_ref {c : Chunk A} {l : List A} (h : Rep N c l) :
    Ref (Rep N) (popBack E N c) (Spec.popBack l) := by
  obtain ⟨h1, h2, h3⟩ := h
  unfold popBack Ref Spec.popBack
  cases hl : l.getLast? with
  | none =>
    have hl' : l = [] := by simpa using hl
    subst hl'
    simp only [List.length_nil, Nat.add_zero] at h1
    vc
    all_goals rep_done
  | some a =>
    have h4 : l ≠ [] := by grind
    have h5 : l.length ≠ 0 := by simpa using h4
    have h6 : c.mem (c.right - 1) = some a := by rw [h3 _ (by omega) (by omega)]; grind
    vc
    refine sat_forceRead (by omega) h6 ?_
    rep_done

theorem insert_ref (hN : N < E.W) {c : Chunk A} {l : List A} (h : Rep N c l) (i : Nat) (v : A) :
    Ref (Rep N) (insert E N i v c) (Spec.insert N i v l) := by
  obtain ⟨h1, h2, h3⟩ := h
  unfold insert Ref Spec.insert
  split
  · vc
    all_goals rep_done
  · vc
    all_goals rep_done

theorem remove_ref (hN : N < E.W) {c : Chunk A} {l : List A} (h : Rep N c l) (i : Nat) :
    Ref (Rep N) (remove E N i c) (Spec.remove i l) := by
  obtain ⟨h1, h2, h3⟩ := h
  unfold remove Ref Spec.remove
  split
  · rename_i a ha
    have hi : i < l.length := by grind
    have h6 : c.mem (i + c.left) = some a := by rw [h3 _ (by omega) (by omega)]; grind
    vc
    refine sat_forceRead (by omega) h6 ?_
    vc
    all_goals rep_done
  · have hi : l.length ≤ i := by grind
    vc
    all_goals rep_done

theorem index_ref {c : Chunk A} {l : List A} (h : Rep N c l) (i : Nat) :
    Ref (Rep N) (index E N i c) (Spec.index i l) := by
  unfold index Ref Spec.index
  vc
  refine sat_asSlice h ?_
  cases l[i]? <;> simp only <;> vc
  · exact ⟨_, rfl, h⟩
  · exact ⟨_, rfl, h⟩

theorem set_ref {c : Chunk A} {l : List A} (h : Rep N c l) (i : Nat) (v : A) :
    Ref (Rep N) (set E N i v c) (Spec.set i v l) := by
  unfold set Ref Spec.set
  vc
  refine sat_asSlice h ?_
  obtain ⟨h1, h2, h3⟩ := h
  cases hl : l[i]? <;> simp only
  · vc; rep_done
  · have : i < l.length := by grind
    vc
    rep_done

theorem mutate_ref {c : Chunk A} {l : List A} (h : Rep N c l) (f : List A → List A) :
    Ref (Rep N) (mutate E N f c) (Spec.mutate f l) := by
  unfold mutate Ref Spec.mutate
  by_cases hf : (f l).length = l.length
  case neg =>
    vc
    refine sat_asSlice h ?_
    vc
    rw [if_neg hf]; exact ⟨_, rfl, h⟩
  rw [if_pos hf]
  vc
  refine sat_asSlice h ?_
  obtain ⟨h1, h2, h3⟩ := h
  vc
  rep_done

theorem insertOrdered_ref (hN : N < E.W) {c : Chunk A} {l : List A} (h : Rep N c l)
    (search : List A → A → Option (Except Nat Nat)) (v : A) :
    Ref (Rep N) (insertOrdered E N search v c) (Spec.insertOrdered N search v l) := by
  unfold insertOrdered Ref Spec.insertOrdered
  have h' := h
  obtain ⟨h1, h2, h3⟩ := h'
  split
  · vc
    refine sat_asSlice h ?_
    rcases search l v with _ | _ | _ <;> simp only
    · exact ⟨_, rfl, h⟩
    all_goals exact insert_ref hN h _ v
  · vc
    rep_done

theorem splitOff_ref (hN : N < E.W) {c : Chunk A} {l : List A} (h : Rep N c l) (i : Nat) :
    RefV (Rep N) (Rep N) (splitOff E N i c) (Spec.splitOff i l) := by
  obtain ⟨h1, h2, h3⟩ := h
  unfold splitOff RefV Spec.splitOff
  split
  · vc
    · refine ⟨_, _, rfl, ?_, ?_⟩
      · have : i = l.length := by omega
        subst this
        simpa using Rep.new
      · rep
    · refine ⟨_, _, rfl, ?_, ?_⟩
      · simp only [Chunk.new]; rep
      · rep
  · vc
    all_goals rep_done

theorem fromFront_ref (hN : N < E.W) {c : Chunk A} {l : List A} (h : Rep N c l) (n : Nat)
    (hn : E.debug = true ∨ n ≤ l.length) :
    RefV (Rep N) (Rep N) (fromFront E N n c) (Spec.fromFront n l) := by
  obtain ⟨h1, h2, h3⟩ := h
  unfold fromFront RefV Spec.fromFront
  split
  · vc
    refine ⟨_, _, rfl, ?_, ?_⟩
    · simp only [Chunk.new]; rep
    · rep
  · have hd : E.debug = true := hn.resolve_right (by assumption)
    simp only [M.debugAssert, hd, if_true]
    vc
    all_goals rep_done

theorem fromBack_ref {c : Chunk A} {l : List A} (h : Rep N c l) (n : Nat)
    (hn : E.debug = true ∨ n ≤ l.length) :
    RefV (Rep N) (Rep N) (fromBack E N n c) (Spec.fromBack n l) := by
  obtain ⟨h1, h2, h3⟩ := h
  unfold fromBack RefV Spec.fromBack
  split
  · vc
    refine ⟨_, _, rfl, ?_, ?_⟩
    · simp only [Chunk.new]; rep
    · rep
  · have hd : E.debug = true := hn.resolve_right (by assumption)
    simp only [M.debugAssert, hd, if_true]
    vc
    all_goals rep_done

theorem drainFrom_ref (hN : N < E.W) {c : Chunk A} {l : List A} (h : Rep N c l) :
    RefV (Rep N) (Rep N) (drainFrom E N c) (Spec.drainFrom l) := by
  have h' := h
  obtain ⟨h1, h2, h3⟩ := h'
  unfold drainFrom RefV Spec.drainFrom
  vc
  have hl : c.right - c.left = l.length := by omega
  rw [hl]
  have := fromFront_ref hN h l.length (Or.inr (Nat.le_refl _))
  simpa [RefV, Spec.fromFront] using this

/-- Two chunks hold two lists. -/
def Rep2 (N : Nat) (s : Chunk A × Chunk A) (t : List A × List A) : Prop := Rep N s.1 t.1 ∧ Rep N s.2 t.2

macro "rep2_done" : tactic => `(tactic| (refine ⟨_, rfl, ?_, ?_⟩ <;> rep))

theorem append_ref (hN : 2 * N < E.W) {c d : Chunk A} {l k : List A} (h : Rep N c l) (h' : Rep N d k) :
    Ref (Rep2 N) (append E N (c, d)) (Spec.append N (l, k)) := by
  obtain ⟨h1, h2, h3⟩ := h
  obtain ⟨k1, k2, k3⟩ := h'
  unfold append Ref Spec.append
  simp only
  split
  · vc
    all_goals rep2_done
  · vc
    all_goals rep2_done

theorem drainFromFront_ref (hN : 2 * N < E.W) {c d : Chunk A} {l k : List A} (h : Rep N c l) (h' : Rep N d k)
    (n : Nat) : Ref (Rep2 N) (drainFromFront E N n (c, d)) (Spec.drainFromFront N n (l, k)) := by
  obtain ⟨h1, h2, h3⟩ := h
  obtain ⟨k1, k2, k3⟩ := h'
  unfold drainFromFront Ref Spec.drainFromFront
  simp only
  split
  · vc
    all_goals rep2_done
  · unfold uadd
    vc
    all_goals rep2_done

theorem drainFromBack_ref (hN : 2 * N < E.W) {c d : Chunk A} {l k : List A} (h : Rep N c l) (h' : Rep N d k)
    (n : Nat) : Ref (Rep2 N) (drainFromBack E N n (c, d)) (Spec.drainFromBack N n (l, k)) := by
  obtain ⟨h1, h2, h3⟩ := h
  obtain ⟨k1, k2, k3⟩ := h'
  unfold drainFromBack Ref Spec.drainFromBack
  simp only
  split
  · vc
    all_goals rep2_done
  · unfold uadd
    vc
    all_goals rep2_done

end Chunk
end Verif
