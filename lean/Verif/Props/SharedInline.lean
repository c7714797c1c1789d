import Verif.Shared
import Verif.Inline.View
import Verif.Props.InlineOps
import Verif.Fuzz
/-! # C91 for `InlineArray`: shared calls write nothing; concurrent readers agree -/
namespace Verif.Inline
open Shared
variable {A H : Type} [DecidableEq A]

/-- The calls that take an array by `&self` (src/inline_array/mod.rs:231-250, 422-447, 455-486, 508-530, 553-559; iter.rs). -/
inductive Query (A H : Type) where
  | len | isEmpty | isFull | items | sizeHint | fmt
  | get (i : Nat) | index (i : Nat)
  | eqSlice (eq : A → A → Bool) (other : List A)
  | hash (h : A → List (Feed H))
  | clone (cl : A → Option A) (place : Nat)
/-- The calls that take two arrays by shared reference (src/inline_array/mod.rs:478-506). -/
inductive Query2 (A : Type) where
  | eq (eq : A → A → Bool)
  | partialCmp (cmp : A → A → Option Ordering)
  | cmp (cmp : A → A → Ordering)

/-- The calls on the model of the code. -/
def ask (E : Env) (L : Layout A) (dp : A → Bool) : Query A H → M (Inline A) (Ans A H)
  | .len => do return .nat (← len E L)
  | .isEmpty => do return .bool (← isEmpty E L)
  | .isFull => do return .bool (← isFull E L)
  | .items => do return .refs (← items E L)
  | .sizeHint => do let h ← sizeHint E L; return .hint h.1 h.2
  | .fmt => do return .fmt (← fmt E L)
  | .get i => do return .optRef (← get E L i)
  | .index i => do return .ref (← index E L i)
  | .eqSlice eq other => do return .bool (← eqSlice E L eq other)
  | .hash h => do return .feed (← hash E L h)
  | .clone cl k => do return .refs (← cloneThen (clone E L dp cl k) (items E L))
def ask2 (E : Env) (L : Layout A) : Query2 A → M (Inline A × Inline A) (Ans A H)
  | .eq eq => do return .bool (← eqInline E L L eq)
  | .partialCmp c => do return .ord (← partialCmp E L c)
  | .cmp c => do return .ord (some (← cmp E L c))

/-- What a list of at most `N` items answers; `none` if the call panics. -/
def answer (N : Nat) : Query A H → List A → Option (Ans A H)
  | .len, l => some (.nat l.length)
  | .isEmpty, l => some (.bool l.isEmpty)
  | .isFull, l => some (.bool (decide (l.length = N)))
  | .items, l => some (.refs l)
  | .sizeHint, l => some (.hint l.length (some l.length))
  | .fmt, l => some (.fmt [.text "Chunk", .list l])
  | .get i, l => some (.optRef l[i]?)
  | .index i, l => l[i]?.map .ref
  | .eqSlice eq other, l => some (.bool (seqEq eq l other))
  | .hash h, l => some (.feed (hashItems h l))
  | .clone cl _, l => (l.mapM cl).map .refs
def answer2 : Query2 A → List A → List A → Option (Ans A H)
  | .eq eq, l, k => some (.bool (seqEq eq l k))
  | .partialCmp c, l, k => some (.ord (seqPartialCmp c l k))
  | .cmp c, l, k => some (.ord (some (seqCmp c l k)))

section proof
variable {E : Env} {L : Layout A} {dp : A → Bool} {σ ρ : Type} {part : σ → ρ}

/-- A computation that answers without changing the state, or is undefined behaviour. -/
theorem ro_of {x : M σ ρ} (h : ∀ s, (∃ a, x s = .ok a s) ∨ x s = .ub) : ReadOnly x := fun s => by
  rcases h s with ⟨a, e⟩ | e <;> rw [e] <;> exact ⟨fun a s' h => (by cases h <;> rfl), fun s' h => (by cases h)⟩
omit [DecidableEq A] in
theorem k_ptrAdd (size : Nat) (p : Ptr) (n : Nat) : Keeps part (ptrAdd L size p n : M σ Ptr) := by unfold ptrAdd; keeps
omit [DecidableEq A] in
theorem ro_get' : ReadOnly (M.get : M σ σ) := Keeps.get
omit [DecidableEq A] in
theorem ro_loadLen (p : Ptr) : ReadOnly (loadLen L p : M (Inline A) Nat) := ro_of fun s => by
  unfold loadLen; repeat' split
  all_goals simp
theorem ro_loadElem (p : Ptr) : ReadOnly (loadElem L p : M (Inline A) A) := ro_of fun s => by
  unfold loadElem; repeat' split
  all_goals simp
theorem ro_loadMany (n : Nat) (p : Ptr) : ReadOnly (loadMany L p n : M (Inline A) (List A)) := by
  induction n generalizing p with
  | zero => exact Keeps.pure _
  | succ n ih =>
    unfold loadMany
    exact Keeps.bind (ro_loadElem p) fun _ => Keeps.bind (k_ptrAdd _ _ _) fun _ => Keeps.bind (ih _) fun _ => Keeps.pure _
theorem ro_slice (p : Ptr) (n : Nat) : ReadOnly (slice L p n : M (Inline A) (List A)) := by
  unfold slice; exact Keeps.bind ro_get' fun _ => Keeps.ite (ro_loadMany _ _) Keeps.ub
omit [DecidableEq A] in
theorem ro_lenPtr : ReadOnly (lenPtr E L : M (Inline A) Ptr) := by
  unfold lenPtr; exact Keeps.bind (k_ptrAdd _ _ _) fun _ => Keeps.bind ro_get' fun _ => Keeps.bind (Keeps.debugAssert _ _) fun _ => Keeps.pure _
omit [DecidableEq A] in
theorem ro_dataPtr : ReadOnly (dataPtr E L : M (Inline A) Ptr) := by
  unfold dataPtr
  exact Keeps.ite (Keeps.pure _)
    (Keeps.bind (k_ptrAdd _ _ _) fun _ => Keeps.bind ro_get' fun _ => Keeps.bind (Keeps.debugAssert _ _) fun _ => Keeps.pure _)
omit [DecidableEq A] in
theorem ro_len : ReadOnly (len E L : M (Inline A) Nat) := by unfold len; exact Keeps.bind ro_lenPtr ro_loadLen
theorem ro_items : ReadOnly (items E L : M (Inline A) (List A)) := by
  unfold items; exact Keeps.bind ro_dataPtr fun _ => Keeps.bind ro_len fun _ => ro_slice _ _
omit [DecidableEq A] in
theorem k_make (x : M Unit (Inline A)) : Keeps part (make x : M σ (Inline A)) := by
  intro s
  simp only [make]
  cases hx : x () with
  | ok a s' => exact ⟨fun a s' h => (by cases h; rfl), fun s' h => (by cases h)⟩
  | panic s' => exact ⟨fun a s' h => (by cases h), fun s' h => (by cases h; rfl)⟩
  | _ => exact ⟨fun a s' h => (by cases h), fun s' h => (by cases h)⟩
theorem ro_itemAt (i : Nat) : ReadOnly (itemAt E L i : M (Inline A) A) := by
  unfold itemAt; have := ro_items (E := E) (L := L); keeps
theorem k_cloneLoop (cl : A → Option A) (n i : Nat) : Keeps (·.2) (cloneLoop E L cl n i) := by
  induction n generalizing i with
  | zero => exact Keeps.pure _
  | succ n ih =>
    unfold cloneLoop
    refine Keeps.bind (Keeps.of_readOnly (Keeps.onSnd (ro_itemAt i))) fun a => Keeps.bind ?_ fun b => Keeps.bind Keeps.fst fun _ => ih _
    unfold cloneOne; split
    · exact Keeps.pure _
    · exact Keeps.panic
theorem keeps_clone (cl : A → Option A) (k : Nat) : Keeps (·.1) (clone E L dp cl k) := by
  unfold clone
  refine Keeps.bind (k_make _) fun _ => Keeps.bind ?_ fun _ => Keeps.pure _
  refine Keeps.withLocal (part := fun s => s) (Keeps.onFst' (part := fun s : Inline A × Inline A => s.2) ?_) Keeps.atFst
  exact Keeps.bind (Keeps.of_readOnly (Keeps.onSnd ro_len)) fun _ => Keeps.bind (k_cloneLoop _ _ _) fun _ =>
    Keeps.bind (Keeps.of_readOnly (Keeps.onSnd ro_len)) fun _ => Keeps.fst

/-- C91. A call through a shared reference to an inline array writes nothing: on every array, in whatever state, it leaves every byte as
it was, whether it returns or panics. -/
theorem C91_shared_calls_write_nothing (q : Query A H) : ReadOnly (ask E L dp q) := by
  have h1 := ro_len (A := A) (E := E) (L := L)
  have h2 := ro_items (A := A) (E := E) (L := L)
  cases q with
  | clone cl k => exact Keeps.bind (Keeps.cloneThen (keeps_clone cl k)) fun _ => Keeps.pure _
  | _ => unfold ask; (try unfold isEmpty isFull sizeHint fmt get index eqSlice hash); keeps
theorem C91_shared_calls_on_two_write_nothing (q : Query2 A) : ReadOnly (ask2 E L q : M (Inline A × Inline A) (Ans A H)) := by
  have h := ro_items (A := A) (E := E) (L := L)
  cases q <;> unfold ask2 <;> (first | unfold eqInline | unfold partialCmp | unfold cmp) <;> keeps

/-- C91. Threads that share inline arrays that safe code can have made, and call them through shared references: whatever the scheduler
does, the arrays never change, and every thread gets from each of its calls the answer that a list with the same contents gives. -/
theorem C91_readers_agree (hv : L.Valid E) :
    Agree (fun s l => (∃ dp cl, Reachable E L dp cl s) ∧ View E L s l) (ask E L dp) (ask2 E L)
      (answer (cap E L) : Query A H → List A → Option (Ans A H)) answer2 := by
  refine agree (fun q c l h => ?_) (fun q c l c' l' h h' => ?_)
  · obtain ⟨⟨dp', cl', hre⟩, h⟩ := h
    have hr := hre.rep_of_view hv h
    cases q with
    | index i =>
      cases hi : l[i]? <;> simp [ask, answer, index, items_eq hv hr, hi] <;> rfl
    | get i => simp [ask, answer, get, items_eq hv hr]
    | clone cl k =>
      cases hc : l.mapM cl with
      | some cs =>
        have hb := Chunk.bornOf_all (mapM_some hc)
        have hlen : cs.length = l.length := by have := congrArg List.length (mapM_some hc); simpa using this.symm
        obtain ⟨d, ⟨s1, s2⟩, e, h1, h3, h4⟩ := (clone_ref hv dp cl k hr []).of_ok
          (b := cs) (t := (l, [])) (by simp only [Spec.cloneLeaky, hb]; rw [if_pos hlen])
        have := (keeps_clone (dp := dp) cl k (c, [])).1 _ _ e
        simp only at this
        subst this
        simp [ask, answer, hc, cloneThen, unlogged, own, e, items_eq hv h1]
      | none =>
        obtain ⟨l₁, x, l₂, cs, rfl, h1, h2⟩ := mapM_none hc
        have hb := Chunk.bornOf_stop (l₂ := l₂) h1 h2
        have hlen : cs.length = l₁.length := by have := congrArg List.length h1; simpa using this.symm
        obtain ⟨⟨s1, s2⟩, e, h3, h4⟩ := (clone_ref hv dp cl k hr []).of_panic
          (t := (l₁ ++ x :: l₂, [])) (by simp only [Spec.cloneLeaky, hb]; rw [if_neg (by simp; omega)])
        have := (keeps_clone (dp := dp) cl k (c, [])).2 _ e
        simp only at this
        subst this
        simp [ask, answer, hc, cloneThen, unlogged, e]
    | _ => simp [ask, answer, len_eq hv hr, isEmpty_eq hv hr, isFull_eq hv hr, items_eq hv hr, sizeHint_eq hv hr, fmt, eqSlice, hash]
  · obtain ⟨⟨dp', cl', hre⟩, h⟩ := h
    have hr := hre.rep_of_view hv h
    obtain ⟨⟨dp', cl', hre'⟩, h'⟩ := h'
    have hr' := hre'.rep_of_view hv h'
    cases q <;> simp [ask2, answer2, eqInline, partialCmp, cmp, items_eq hv hr, items_eq hv hr']
end proof

section examples
/-- Two threads on one shared array; one of the calls panics. -/
def readers : Nat → Thread (Call (Query Nat Nat) (Query2 Nat)) (Ans Nat Nat)
  | 0 => ⟨[.one 0 .len, .one 0 (.index 5), .two 0 1 (.cmp compare)], []⟩
  | 1 => ⟨[.one 1 .items, .one 0 (.clone (fun a => some (a + 1)) 7)], []⟩
  | _ => ⟨[], []⟩
example : (interleave (call (ask Chunk.dbg64 words Fuzz.nodrop) (ask2 Chunk.dbg64 words)) [1, 0, 0, 1, 7, 0] ((fun _ => three), readers)).map
      (fun s => ((s.2 0).got, (s.2 1).got)) =
    some ([some (.nat 3), none, some (.ord (some .eq))], [some (.refs [10, 20, 30]), some (.refs [11, 21, 31])]) := by decide +kernel
example : ∃ dp cl, Reachable Chunk.dbg64 words dp cl three := ⟨fun _ => false, some, three_spec.1⟩
end examples
end Verif.Inline
