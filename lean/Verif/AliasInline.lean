import Verif.AliasMethods
import Verif.Inline.Lemmas2
/-
What the calls of the methods of `InlineArray` (AliasMethods.lean) do to the bytes of the arrays.
-/
namespace Verif.Alias
open Verif
variable {A : Type}

/-- Replace one of the arrays. -/
def atBox (m : Nat → Inline A) (x : Nat) (s : Inline A) : Nat → Inline A := fun y => if y = x then s else m y

/-- Items `0 .. n` of an array are initialised elements. -/
def Filled (L : Layout A) (s : Inline A) (n : Nat) : Prop := ∀ j, j < n → ∃ a, Inline.Slot L s j a

open Inline in
/-- The effect of a call on the bytes of the arrays, whatever the values written. Reads, drops and uses of references find initialised elements. -/
inductive Call.ActsInline (E : Env) (L : Layout A) : Call → (Nat → Inline A) → (Nat → Inline A) → Prop
  | inlineLen {x m} : ActsInline E L (.inlineLen x) m m
  | inlineSetLen {x m} (n : Nat) : ActsInline E L (.inlineSetLen x) m (atBox m x (withLen E L (m x) n))
  | inlineRead {x i m} (h : ∃ a, Slot L (m x) i a) : ActsInline E L (.inlineRead x i) m m
  | inlineWrite {x i m} (v : A) : ActsInline E L (.inlineWrite x i) m (atBox m x (withSlot L (m x) i v))
  /-- src/inline_array/mod.rs:337-342: items `i ..` move up by one, the new one is written, the length grows. -/
  | inlineInsert {x i k m} (v : A) : ActsInline E L (.inlineInsert x i k) m
      (atBox m x (withLen E L (withSlot L (withCopy L (m x).bytes i (m x) (i + 1) (k - i)) i v) (k + 1)))
  /-- src/inline_array/mod.rs:357-361: the item is read, the length shrinks, items `i + 1 ..` move down by one. -/
  | inlineRemove {x i k m} (h : ∃ a, Slot L (m x) i a) : ActsInline E L (.inlineRemove x i k) m
      (atBox m x (withCopy L (withLen E L (m x) (k - 1)).bytes (i + 1) (withLen E L (m x) (k - 1)) i (k - 1 - i)))
  | inlineCopy {x y frm n m} : ActsInline E L (.inlineCopy x y frm n) m (atBox m y (withCopy L (m x).bytes frm (m y) 0 n))
  | inlineDeref {x n i m} (h : Filled L (m x) n) : ActsInline E L (.inlineDeref x n i) m m
  | inlineDerefMut {x n i m} (h : Filled L (m x) n) (v : A) : ActsInline E L (.inlineDerefMut x n i) m (atBox m x (withSlot L (m x) i v))
  /-- A slice for `drop_in_place`, which leaves the slots as they are. -/
  | inlineDerefDrop {x n i m} (h : Filled L (m x) n) : ActsInline E L (.inlineDerefMut x n i) m m

/-- The effect of several calls. -/
inductive ActsInlineAll (E : Env) (L : Layout A) : List Call → (Nat → Inline A) → (Nat → Inline A) → Prop
  | nil {m} : ActsInlineAll E L [] m m
  | cons {c cs m m' m''} : Call.ActsInline E L c m m' → ActsInlineAll E L cs m' m'' → ActsInlineAll E L (c :: cs) m m''

/-- Memory in which an array is about to be made, at `k` times the alignment. -/
def blank (L : Layout A) (k : Nat) : Inline A := { addr := k * L.align, bytes := fun _ => .uninit }

/-- Two arrays. -/
def both (s t : Inline A) : Nat → Inline A := fun y => if y = 0 then s else if y = 1 then t else ⟨0, fun _ => .uninit⟩

/-- The byte model of the method (Inline/Model.lean) takes the arrays `s` and `t` to `s'` and `t'` without a panic. -/
def InlineMethod.Runs [DecidableEq A] (E : Env) (L : Layout A) (m : InlineMethod) (s t s' t' : Inline A) : Prop :=
  match m with
  | .push => ∃ v, Inline.push E L v s = .ok () s' ∧ t' = t
  | .pop => ∃ v, Inline.pop E L s = .ok v s' ∧ t' = t
  | .insert i => ∃ v, Inline.insert E L i v s = .ok () s' ∧ t' = t
  | .remove i => ∃ v, Inline.remove E L i s = .ok v s' ∧ t' = t
  | .splitOff i => ∃ k, t = blank L k ∧ Inline.splitOff E L k i s = .ok t' s'
  | .clear => ∃ (dp : A → Bool) (log log' : List A), Inline.clear E L dp (s, log) = .ok () (s', log') ∧ t' = t
  | .index i => ∃ v, Inline.index E L i s = .ok v s' ∧ t' = t
  | .indexMut i => ∃ v w, Inline.set E L i v s = .ok w s' ∧ t' = t
  | .clone => ∃ (dp : A → Bool) (cl : A → Option A) (k : Nat) (log log' : List A), t = blank L k ∧ Inline.clone E L dp cl k (s, log) = .ok t' (s', log')

end Verif.Alias
