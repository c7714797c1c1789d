import Verif.Types
/-
C105 and C106: auto traits and variance of the public types.
-/
namespace Verif.Types

/-- C105. If a public type may be sent to another thread, then its items may be (if it gives access to the items themselves), or may be shared
(if it gives shared references to them). If it may be shared, then so may its items. -/
theorem C105_sound (p : Public) (k : Marks) :
    (Send k p.fields → (p.access = .exclusive → k.itemSend) ∧ (p.access = .shared → k.itemSync)) ∧ (Sync k p.fields → k.itemSync) := by
  cases p <;>
    simp (config := { contextual := true }) [Public.fields, Public.access, Send, Sync, chunkFields, ringFields, sparseFields, inlineFields]

/-- C105, the other direction: they may be sent and shared whenever that is so and, for an `InlineArray`, the host type may be sent and shared too -
except `IterMut` of `RingBuffer`, which may never be. -/
theorem C105_whenever (p : Public) (hp : p ≠ .ringIterMut) (k : Marks) :
    ((p.access = .exclusive → k.itemSend) → (p.access = .shared → k.itemSync) → (p.hosted = true → k.hostSend) → Send k p.fields) ∧
    (k.itemSync → (p.hosted = true → k.hostSync) → Sync k p.fields) := by
  cases p <;>
    simp (config := { contextual := true }) [Public.fields, Public.access, Public.hosted, Send, Sync, chunkFields, ringFields, sparseFields,
      inlineFields] at hp ⊢

/-- C105: `IterMut` of `RingBuffer` may neither be sent nor shared, whatever the items are; `IterMut` of `SparseChunk`, like that of slices, may. -/
theorem C105_ring_iter_mut (k : Marks) : ¬ Send k Public.ringIterMut.fields ∧ ¬ Sync k Public.ringIterMut.fields ∧
    (Send k Public.sparseIterMut.fields ↔ k.itemSend) := by
  simp [Public.fields, Send, Sync, sparseFields]

/-- C105 is not vacuous, and all of its parts matter: with items that may be sent but not shared (`Cell<u8>`), with items that may be shared but not
sent (`MutexGuard<u8>`), and with a host type that may not be sent. -/
example : Send ⟨True, False, True, True⟩ Public.chunk.fields ∧ ¬ Send ⟨True, False, True, True⟩ Public.ringIter.fields ∧
    Send ⟨False, True, True, True⟩ Public.ringIter.fields ∧ ¬ Send ⟨False, True, True, True⟩ Public.inline.fields ∧
    ¬ Send ⟨True, True, False, False⟩ Public.inline.fields := by
  simp [Public.fields, Send, Sync, chunkFields, ringFields, inlineFields]

/-! ### Variance -/

variable {V : Type} {mem : Nat → Promise V} {P Q : V → Prop} {a b : Nat}

/-- Why `Means` is the meaning: in a memory that is as promised, what is read through a reference is a value of the type, and a value of the type written
through a mutable one leaves memory as promised. -/
theorem Means.ref_read {t : Ty} {n : Nat} {now : Nat → Val V} (hm : ∀ n, (mem n).may (now n)) (h : Means mem P a (.ref t) (.addr n)) :
    Means mem P a t (now n) := by
  obtain ⟨m, e, h1, -⟩ := h; cases e; exact h1 _ (hm _)
theorem Means.refMut_read {t : Ty} {n : Nat} {now : Nat → Val V} (hm : ∀ n, (mem n).may (now n)) (h : Means mem P a (.refMut t) (.addr n)) :
    Means mem P a t (now n) := by
  obtain ⟨m, e, h1, -⟩ := h; cases e; exact (h1 _).1 (hm _)
theorem Means.refMut_write {t : Ty} {n : Nat} {now : Nat → Val V} (hm : ∀ n, (mem n).may (now n)) (h : Means mem P a (.refMut t) (.addr n))
    {v : Val V} (hv : Means mem P a t v) : ∀ k, (mem k).may (if k = n then v else now k) := by
  obtain ⟨m, e, h1, -⟩ := h; cases e
  intro k; split
  · next e => subst e; exact (h1 _).2 hv
  · exact hm k

theorem means_free (t : Ty) (h : ¬ HasItem t) (v : Val V) : Means mem P a t v ↔ Means mem Q a t v := by
  induction t generalizing v with
  | plain => exact Iff.rfl
  | item => exact absurd trivial h
  | host => exact Iff.rfl
  | ptrMut t ih => exact Iff.rfl
  | both s t ihs iht =>
    simp only [HasItem, not_or] at h
    simp only [Means, ihs h.1, iht h.2]
  | many t ih => simp only [Means, ih h]
  | ref t ih => simp only [Means, ih h]
  | refMut t ih => simp only [Means, ih h]

theorem means_mono (hPQ : ∀ x, P x → Q x) (t : Ty) (h : Covariant t) (v : Val V) : Means mem P a t v → Means mem Q a t v := by
  induction t generalizing v with
  | plain => exact id
  | item => rintro ⟨x, rfl, hx⟩; exact ⟨x, rfl, hPQ x hx⟩
  | host => exact id
  | ptrMut t ih => exact id
  | both s t ihs iht => rintro ⟨x, y, rfl, h1, h2⟩; exact ⟨x, y, rfl, ihs h.1 _ h1, iht h.2 _ h2⟩
  | many t ih => rintro ⟨l, rfl, h1⟩; exact ⟨l, rfl, fun x hx => ih h _ (h1 x hx)⟩
  | ref t ih => rintro ⟨n, rfl, h1, h2⟩; exact ⟨n, rfl, fun x hx => ih h _ (h1 x hx), h2⟩
  | refMut t ih => rintro ⟨n, rfl, h1, h2⟩; exact ⟨n, rfl, fun x => (h1 x).trans (means_free t h x), h2⟩

theorem means_lifeless (t : Ty) (h : ¬ HasLife t) (v : Val V) : Means mem P a t v ↔ Means mem P b t v := by
  induction t generalizing v with
  | plain | item | host | ptrMut t ih => exact Iff.rfl
  | both s t ihs iht =>
    simp only [HasLife, not_or] at h
    simp only [Means, ihs h.1, iht h.2]
  | many t ih => simp only [Means, ih h]
  | ref t ih => exact absurd trivial h
  | refMut t ih => exact absurd trivial h

theorem means_shorter (hab : b ≤ a) (t : Ty) (h : LifeCovariant t) (v : Val V) : Means mem P a t v → Means mem P b t v := by
  induction t generalizing v with
  | plain | item | host | ptrMut t ih => exact id
  | both s t ihs iht => rintro ⟨x, y, rfl, h1, h2⟩; exact ⟨x, y, rfl, ihs h.1 _ h1, iht h.2 _ h2⟩
  | many t ih => rintro ⟨l, rfl, h1⟩; exact ⟨l, rfl, fun x hx => ih h _ (h1 x hx)⟩
  | ref t ih => rintro ⟨n, rfl, h1, h2⟩; exact ⟨n, rfl, fun x hx => ih h _ (h1 x hx), Nat.le_trans hab h2⟩
  | refMut t ih => rintro ⟨n, rfl, h1, h2⟩; exact ⟨n, rfl, fun x => (h1 x).trans (means_lifeless t h x), Nat.le_trans hab h2⟩

/-- C106. Where the compiler lets the item type of a public type be replaced by a more general one (such as one with a shorter lifetime), what the type
hands out is of the more general type. Where it lets the lifetime be shortened, what the type hands out is valid for the shorter one. -/
theorem C106_sound (p : Public) :
    (Covariant p.fields → (∀ x, P x → Q x) → ∀ v, Means mem P a p.means v → Means mem Q a p.means v) ∧
    (LifeCovariant p.fields → b ≤ a → ∀ v, Means mem P a p.means v → Means mem P b p.means v) := by
  refine ⟨fun h hPQ v => means_mono hPQ _ ?_ v, fun h hab v => means_shorter hab _ ?_ v⟩
  · revert h
    cases p <;> simp [Public.fields, Public.means, Covariant, HasItem, chunkFields, ringFields, sparseFields, inlineFields]
  · revert h
    cases p <;> simp [Public.means, LifeCovariant, HasLife]

/-- Does the type let its owner write to memory it does not own? -/
def Public.borrowsMut : Public → Bool
  | chunkDrain | ringDrain | inlineDrain | ringIterMut | ringSliceMut | sparseIterMut | sparseOptionIterMut => true
  | _ => false

/-- C106: the compiler allows that for the item type of every public type but those that borrow mutably, and for the lifetime of all. -/
theorem C106_usable (p : Public) : (Covariant p.fields ↔ p.borrowsMut = false) ∧ LifeCovariant p.fields := by
  cases p <;>
    simp [Public.fields, Public.borrowsMut, Covariant, LifeCovariant, HasItem, HasLife, chunkFields, ringFields, sparseFields, inlineFields]

/-- C106: for the types that borrow mutably it would be wrong: some client could write an item of the more general type where the owner
relies on the special one. -/
theorem C106_necessary (p : Public) (hp : p.borrowsMut = true) :
    ∃ (mem : Nat → Promise Nat) (P Q : Nat → Prop) (v : Val Nat), (∀ x, P x → Q x) ∧ Means mem P 0 p.means v ∧ ¬ Means mem Q 0 p.means v := by
  have one : ∃ (mem : Nat → Promise Nat) (P Q : Nat → Prop) (v : Val Nat), (∀ x, P x → Q x) ∧ Means mem P 0 (.many (.refMut .item)) v ∧
      ¬ Means mem Q 0 (.many (.refMut .item)) v := by
    refine ⟨fun _ => ⟨fun v => v = .item 1, 0⟩, (· = 1), fun _ => True, .seq [.addr 0], fun _ _ => trivial, ⟨_, rfl, ?_⟩, ?_⟩
    · simp [Means]
    · rintro ⟨l, e, h⟩
      cases e
      obtain ⟨n, e, h1, -⟩ := h (.addr 0) (by simp)
      have := (h1 (.item 2)).2 ⟨2, rfl, trivial⟩
      simp at this
  have two : ∃ (mem : Nat → Promise Nat) (P Q : Nat → Prop) (v : Val Nat), (∀ x, P x → Q x) ∧ Means mem P 0 (.refMut (.many .item)) v ∧
      ¬ Means mem Q 0 (.refMut (.many .item)) v := by
    refine ⟨fun _ => ⟨fun v => ∃ l, v = .seq l ∧ ∀ x ∈ l, x = .item 1, 0⟩, (· = 1), fun _ => True, .addr 0, fun _ _ => trivial, ?_, ?_⟩
    · simp [Means]
    · rintro ⟨n, e, h1, -⟩
      have := (h1 (.seq [.item 2])).2 ⟨_, rfl, by simp [Means]⟩
      simp at this
  cases p <;> first | exact one | exact two | cases hp

/-- C106 is not vacuous: an `Iter` over a buffer of long-lived items, used as one of shorter-lived items for a shorter time. -/
example : Covariant Public.ringIter.fields ∧ LifeCovariant Public.ringIterMut.fields ∧
    Means (fun _ => ⟨fun v => v = .item 9, 5⟩) (9 ≤ ·) 5 Public.ringIter.means (.seq [.addr 0, .addr 1]) :=
  ⟨by simp [Public.fields, Covariant, ringFields], by simp [Public.fields, LifeCovariant, HasLife], _, rfl, by simp [Means]⟩

end Verif.Types
