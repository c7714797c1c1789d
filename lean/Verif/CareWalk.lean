import Verif.Walk
import Verif.CareSpec
/-
Code that is handed one of the crate's iterators, once more, with effects of its own: beside calling the iterator it runs programs on a state `υ` of
its own, which may count, keep what they have seen, destroy items, call anything else and panic; the destructors of the elements are such programs too
(`Elem`).  It may also forget the iterator.
-/
namespace Verif
variable {A B R S σ τ υ : Type}

/-- An iterator: `next()`, `next_back()`, `size_hint()` and what dropping the iterator does (to the iterator and the user's state). -/
structure EndsBy (τ υ B : Type) where
  next : M τ (Option B)
  nextBack : M τ (Option B)
  hint : M τ (Nat × Option Nat)
  drop : M (τ × υ) Unit

/-- Code that has an iterator.  In each step `clean` is what unwinding does after it has dropped the iterator (for what comes before, see `user`): it
destroys the items the code holds, for instance. -/
inductive WalkerBy (both : Bool) (υ B R : Type) where
  /-- It drops the iterator, and goes on without. -/
  | stop (clean : M υ Unit) (rest : M υ R)
  /-- It passes the iterator to `mem::forget`, and goes on without. -/
  | forget (rest : M υ R)
  | next (clean : M υ Unit) (k : Option B → WalkerBy both υ B R)
  | nextBack (h : both = true) (clean : M υ Unit) (k : Option B → WalkerBy both υ B R)
  | hint (clean : M υ Unit) (k : Nat × Option Nat → WalkerBy both υ B R)
  /-- It does something of its own, destroying items among others, and may look at its state afterwards.  This may panic, after what `x` itself does
  when it unwinds. -/
  | user (clean : M υ Unit) (x : M υ Unit) (k : υ → WalkerBy both υ B R)

namespace WalkerBy
variable {both : Bool}

/-- Running such code; the state is the iterator and the user's state. -/
def run (it : EndsBy τ υ B) : WalkerBy both υ B R → M (τ × υ) R
  | stop clean rest => do M.onUnwind it.drop (M.onSnd clean); M.onSnd rest
  | forget rest => M.onSnd rest
  | next clean k => do run it (k (← M.onUnwind (M.onUnwind (M.onFst it.next) it.drop) (M.onSnd clean)))
  | nextBack _ clean k => do run it (k (← M.onUnwind (M.onUnwind (M.onFst it.nextBack) it.drop) (M.onSnd clean)))
  | hint clean k => do run it (k (← M.onUnwind (M.onUnwind (M.onFst it.hint) it.drop) (M.onSnd clean)))
  | user clean x k => do
    M.onUnwind (M.onUnwind (M.onSnd x) it.drop) (M.onSnd clean)
    run it (k (← M.onSnd M.get))

/-- Code without effects of its own beyond the log of destroyed items, as in Verif/Walk.lean. -/
def plain (dp : A → Bool) : Walker both A R → WalkerBy both (List A) A R
  | .stop r => stop (pure ()) (pure r)
  | .panic => user (pure ()) M.panic fun _ => forget M.panic
  | .next k => next (pure ()) fun r => plain dp (k r)
  | .nextBack h k => nextBack h (pure ()) fun r => plain dp (k r)
  | .hint k => hint (pure ()) fun h => plain dp (k h)
  | .toss a k => user (pure ()) (fun log => if dp a = true then .panic (log ++ [a]) else .ok () (log ++ [a])) fun _ => plain dp k

end WalkerBy

/-! ### The crate's iterators: those of Verif/Walk.lean, dropped with the elements' own destructors -/

/-- The same iterator, dropped by `drop`. -/
def Ends.dropped (it : Ends τ A B) (drop : M (τ × υ) Unit) : EndsBy τ υ B := ⟨it.next, it.nextBack, it.hint, drop⟩

/-- An iterator without a destructor and without contents of its own, dropping which does nothing (nor does the iterator look at the destructors).
`drain()` of `Chunk`, `RingBuffer` and `InlineArray`; everything named `iter`. -/
def Ends.borrowed (it : Ends τ A B) : EndsBy τ υ B := it.dropped (pure ())

namespace Chunk
/-- `into_iter()`: src/sized_chunk/mod.rs:936-944; iter.rs:7-37.  Its only field is the chunk, whose destructor runs. -/
def intoIterBy (E : Env) (N : Nat) (el : Elem υ A) : EndsBy (Chunk A) υ A := (intoIterEnds E N fun _ => false).dropped (dropBy E N el)
end Chunk

namespace Ring
/-- `into_iter()`: src/ring_buffer/mod.rs:948-956; iter.rs:163-191. -/
def intoIterBy (E : Env) (N : Nat) (el : Elem υ A) : EndsBy (Ring A) υ A := (intoIterEnds E N fun _ => false).dropped (dropBy E N el)
end Ring

namespace Inline
/-- `into_iter()`: src/inline_array/mod.rs:532-539; iter.rs:5-30. -/
def intoIterBy [DecidableEq A] (E : Env) (L : Layout A) (el : Elem υ A) : EndsBy (Inline A) υ A := (intoIterEnds E L fun _ => false).dropped (dropBy E L el)
end Inline

namespace Sparse
/-- `drain()` and `into_iter()`: src/sparse_chunk/mod.rs:264-266, 339-350; iter.rs:62-86.  They own the chunk. -/
def drainBy (N : Nat) (el : Elem υ A) : EndsBy (Sparse A) υ A := (drainEnds N fun _ => false).dropped (dropBy N el)
/-- `option_drain()`: src/sparse_chunk/mod.rs:300-305; iter.rs:171-201; it owns the chunk. -/
def optionDrainBy (E : Env) (N : Nat) (el : Elem υ A) : EndsBy (Sparse A × Nat) υ (Option A) :=
  (optionDrainEnds E N fun _ => false).dropped fun s => (dropBy N el (s.1.1, s.2)).mapState fun p => ((p.1, s.1.2), p.2)
end Sparse

/-! ### Specification: an iterator over a list -/

/-- The iterator over a list: it yields from either end, says by `hint` how many items it has left, and when dropped, does `drop` with the items left. -/
def listBy (hint : List B → Nat × Option Nat) (drop : List B → M υ Unit) : EndsBy (List B) υ B :=
  ⟨Spec.popFront?, Spec.popBack?, fun l => .ok (hint l) l, fun s => (drop s.1 s.2).mapState fun u => (s.1, u)⟩

/-- The state `s` beside the user's is `T`-related to the list; the user's states are the same. -/
def RelBy (T : τ → List B → Prop) (s : τ × υ) (t : List B × υ) : Prop := T s.1 t.1 ∧ s.2 = t.2

/-- Every use of the iterator `it`, in a state that represents the list `l`, is a use of the list's iterator: the same answers, the user's programs run
on the same states in the same order, it ends in the same way, and in the end the state is `T`-related to the list left. -/
def EndsBy.Walks (it : EndsBy τ υ B) (ls : EndsBy (List B) υ B) (both : Bool) (T : τ → List B → Prop) (t : τ) (l : List B) : Prop :=
  ∀ (R : Type) (w : WalkerBy both υ B R) (u : υ), Out.Same Eq (RelBy T) (w.run it (t, u)) (w.run ls (l, u))

end Verif
