import Verif.Basic
/-
A verification-condition generator for the outcome monad of `Verif.Basic`.
Nothing here is trusted: every step is checked by the kernel.
-/
namespace Verif

/-- `Sat o Q P B`: the outcome `o` is a normal return satisfying `Q`, or a panic satisfying `P`, or an abort
and `B` holds.  Undefined behaviour and divergence never satisfy it. -/
def Sat {σ α : Type} (o : Out σ α) (Q : α → σ → Prop) (P : σ → Prop) (B : Prop) : Prop :=
  match o with
  | .ok a s => Q a s
  | .panic s => P s
  | .abort => B
  | .ub => False
  | .diverge => False

section
variable {σ τ α β : Type} {E : Env} {Q : α → σ → Prop} {P : σ → Prop} {B : Prop}

theorem Sat.bind {x : M σ β} {f : β → M σ α} {s : σ}
    (h : Sat (x s) (fun a s' => Sat (f a s') Q P B) P B) : Sat ((x >>= f) s) Q P B := by
  simp only [M.bind_run]
  cases hx : x s <;> simp_all [Sat]

theorem Sat.ok {a : α} {s : σ} (h : Q a s) : Sat (.ok a s) Q P B := h
theorem Sat.panicked {s : σ} (h : P s) : Sat (.panic s : Out σ α) Q P B := h
theorem Sat.aborted (h : B) : Sat (.abort : Out σ α) Q P B := h
theorem Sat.pure {a : α} {s : σ} (h : Q a s) : Sat ((pure a : M σ α) s) Q P B := h
theorem Sat.panic {s : σ} (h : P s) : Sat ((M.panic : M σ α) s) Q P B := h
theorem Sat.get {Q : σ → σ → Prop} {s : σ} (h : Q s s) : Sat ((M.get : M σ σ) s) Q P B := h
theorem Sat.set {Q : Unit → σ → Prop} {s t : σ} (h : Q () t) : Sat ((M.set t : M σ Unit) s) Q P B := h
theorem Sat.ite {c : Prop} [Decidable c] {x y : M σ α} {s : σ}
    (h1 : c → Sat (x s) Q P B) (h2 : ¬ c → Sat (y s) Q P B) : Sat ((if c then x else y) s) Q P B := by
  split <;> simp_all
theorem Sat.ite' {c : Prop} [Decidable c] {x y : Out σ α}
    (h1 : c → Sat x Q P B) (h2 : ¬ c → Sat y Q P B) : Sat (if c then x else y) Q P B := by
  split <;> simp_all
theorem Sat.panicIf {Q : Unit → σ → Prop} {c : Prop} [Decidable c] {s : σ}
    (h1 : c → P s) (h2 : ¬ c → Q () s) : Sat (M.panicIf c s) Q P B := by
  simp only [M.panicIf_run]; split <;> simp_all [Sat]
theorem Sat.assert {Q : Unit → σ → Prop} {c : Prop} [Decidable c] {s : σ}
    (h2 : ¬ c → P s) (h1 : c → Q () s) : Sat (M.assert c s) Q P B := by
  simp only [M.assert_run]; split <;> simp_all [Sat]
theorem Sat.debugAssert {Q : Unit → σ → Prop} {c : Prop} [Decidable c] {s : σ}
    (hc : c) (h1 : Q () s) : Sat (M.debugAssert E c s) Q P B := by
  rw [debugAssert_ok hc]; exact h1
theorem Sat.onFst {x : M σ α} {s : σ} {t : τ} {Q : α → σ × τ → Prop} {P : σ × τ → Prop}
    (h : Sat (x s) (fun a s' => Q a (s', t)) (fun s' => P (s', t)) B) : Sat (M.onFst x (s, t)) Q P B := by
  simp only [M.onFst_run]
  cases hx : x s <;> simp_all [Sat]
theorem Sat.onSnd {x : M τ α} {s : σ} {t : τ} {Q : α → σ × τ → Prop} {P : σ × τ → Prop}
    (h : Sat (x t) (fun a t' => Q a (s, t')) (fun t' => P (s, t')) B) : Sat (M.onSnd x (s, t)) Q P B := by
  simp only [M.onSnd_run]
  cases hx : x t <;> simp_all [Sat]
/-- A sum that exceeds `N` is noticed: by an overflow panic, or by being still larger than `N` after wrapping. -/
theorem uadd_over {E : Env} {N a b : Nat} {s : σ} (hn : E.debug = true ∨ N < (a + b) % E.W) (hb : N < a + b) :
    uadd E a b s = .panic s ∨ ∃ r, N < r ∧ uadd E a b s = .ok r s := by
  unfold uadd
  by_cases h : a + b < E.W
  · exact .inr ⟨a + b, hb, by simp [h]⟩
  · by_cases hd : E.debug = true
    · exact .inl (by simp [h, hd])
    · refine .inr ⟨(a + b) % E.W, ?_, by simp [h, hd]⟩
      rcases hn with hn | hn
      · exact absurd hn hd
      · exact hn
/-- A call of `len()` that returns. -/
theorem M.lenCall_some {α : Type} {n : Nat} {c : M σ Unit} {f : Nat → M σ α} :
    (M.onUnwind (M.lenCall (some n)) c >>= f) = f n := rfl
theorem Sat.onUnwind {x : M σ α} {c : M σ Unit} {s : σ}
    (h : Sat (x s) Q (fun s' => Sat (c s') (fun _ s'' => P s'') (fun _ => B) B) B) :
    Sat (M.onUnwind x c s) Q P B := by
  unfold M.onUnwind
  cases hx : x s with
  | panic s' => rw [hx] at h; simp only [Sat] at h; cases hc : c s' <;> simp_all [Sat]
  | _ => simp_all [Sat]
theorem Sat.withLocal {L : Type} {t : τ} {body : M ((τ × σ) × L) α} {dtor : M ((τ × σ) × L) Unit} {s : σ} {l : L}
    {Q : α × τ → σ × L → Prop} {P : σ × L → Prop}
    (h : Sat (body ((t, s), l)) (fun a s' => Q (a, s'.1.1) (s'.1.2, s'.2))
      (fun s' => Sat (dtor s') (fun _ s'' => P (s''.1.2, s''.2)) (fun _ => B) B) B) :
    Sat (M.withLocal t body dtor (s, l)) Q P B := by
  unfold M.withLocal
  simp only
  cases hx : body ((t, s), l) with
  | panic s' => rw [hx] at h; simp only [Sat] at h; cases hc : dtor s' <;> simp_all [Sat]
  | _ => simp_all [Sat]
theorem Sat.uadd {Q : Nat → σ → Prop} {a b : Nat} {s : σ} (h : a + b < E.W) (hq : Q (a + b) s) :
    Sat (uadd E a b s) Q P B := by rw [uadd_ok h]; exact hq
theorem Sat.usub {Q : Nat → σ → Prop} {a b : Nat} {s : σ} (h : b ≤ a) (hq : Q (a - b) s) :
    Sat (usub E a b s) Q P B := by rw [usub_ok h]; exact hq
theorem Sat.memRead {A : Type} {N : Nat} {m : Mem A} {i : Nat} {a : A} {Q : A → σ → Prop} {s : σ} (h : i < N)
    (h2 : m i = some a) (hq : Q a s) : Sat (memRead N m i s) Q P B := by rw [memRead_ok h h2]; exact hq
theorem Sat.memWrite {A : Type} {N : Nat} {m : Mem A} {i : Nat} {a : A} {Q : Mem A → σ → Prop} {s : σ} (h : i < N)
    (hq : Q (m.put i a) s) : Sat (memWrite N m i a s) Q P B := by rw [memWrite_ok h]; exact hq
theorem Sat.memCopy {A : Type} {Ns Nd : Nat} {m d : Mem A} {f t n : Nat} {Q : Mem A → σ → Prop} {s : σ}
    (h : f + n ≤ Ns) (h2 : t + n ≤ Nd) (hq : Q (m.blit f d t n) s) : Sat (memCopy Ns m f Nd d t n s) Q P B := by
  rw [memCopy_ok h h2]; exact hq

/-- Weakening the postconditions. -/
theorem Sat.imp {o : Out σ α} {Q' : α → σ → Prop} {P' : σ → Prop} {B' : Prop} (h : Sat o Q' P' B')
    (hq : ∀ a s, Q' a s → Q a s) (hp : ∀ s, P' s → P s) (hb : B' → B) : Sat o Q P B := by
  cases o <;> simp_all [Sat]

theorem Sat.of_eq_ok {o : Out σ α} {a : α} {s : σ} (h : o = .ok a s) (hq : Q a s) : Sat o Q P B := by
  subst h; exact hq
theorem Sat.of_eq_panic {o : Out σ α} {s : σ} (h : o = .panic s) (hq : P s) : Sat o Q P B := by
  subst h; exact hq
end

/-- `Ref R o o'`: the outcome `o` of the code matches the outcome `o'` of the specification, with the same
returned value and final states related by `R`. -/
def Ref {σ τ α : Type} (R : σ → τ → Prop) (o : Out σ α) (o' : Out τ α) : Prop :=
  Sat o (fun a s => ∃ t, o' = .ok a t ∧ R s t) (fun s => ∃ t, o' = .panic t ∧ R s t) (o' = .abort)

/-- One step of the generator; extended with the rules of each model. -/
syntax "vc_rule" : tactic
/-- Close an arithmetic side condition. -/
macro "vc_side" : tactic => `(tactic| first | omega | assumption)
/-- Introduce and tidy a branch condition; close the branch when it is impossible. -/
macro "vc_intro" : tactic => `(tactic|
  (intro hvc
   try simp only [decide_eq_true_eq, decide_eq_false_iff_not, Bool.not_eq_true, gt_iff_lt, ge_iff_le, Nat.not_lt, Nat.not_le] at hvc
   try (exfalso; first | contradiction | omega | (simp at hvc; done) | (simp at hvc; omega))))

macro_rules | `(tactic| vc_rule) => `(tactic| with_reducible refine Sat.memCopy (by vc_side) (by vc_side) ?_)
macro_rules | `(tactic| vc_rule) => `(tactic| with_reducible refine Sat.memWrite (by vc_side) ?_)
macro_rules | `(tactic| vc_rule) => `(tactic| with_reducible refine Sat.debugAssert (by vc_side) ?_)
macro_rules | `(tactic| vc_rule) => `(tactic| ((with_reducible apply Sat.assert) <;> vc_intro))
macro_rules | `(tactic| vc_rule) => `(tactic| ((with_reducible apply Sat.panicIf) <;> vc_intro))
macro_rules | `(tactic| vc_rule) => `(tactic| ((with_reducible apply Sat.ite) <;> vc_intro))
macro_rules | `(tactic| vc_rule) => `(tactic| with_reducible refine Sat.usub (by vc_side) ?_)
macro_rules | `(tactic| vc_rule) => `(tactic| with_reducible refine Sat.uadd (by vc_side) ?_)
macro_rules | `(tactic| vc_rule) => `(tactic| with_reducible refine Sat.onSnd ?_)
macro_rules | `(tactic| vc_rule) => `(tactic| with_reducible refine Sat.onFst ?_)
macro_rules | `(tactic| vc_rule) => `(tactic| with_reducible refine Sat.set ?_)
macro_rules | `(tactic| vc_rule) => `(tactic| with_reducible refine Sat.get ?_)
macro_rules | `(tactic| vc_rule) => `(tactic| with_reducible refine Sat.panic ?_)
macro_rules | `(tactic| vc_rule) => `(tactic| with_reducible refine Sat.pure ?_)
macro_rules | `(tactic| vc_rule) => `(tactic| with_reducible refine Sat.bind ?_)

/-- Run the generator until no rule applies. -/
macro "vc" : tactic => `(tactic| repeat' (vc_rule <;> try dsimp only))

end Verif
