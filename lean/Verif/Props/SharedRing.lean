import Verif.Shared
import Verif.Ring.View
import Verif.Props.RingBulk
import Verif.Props.RingSlices
import Verif.Fuzz
/-! # C91 for `RingBuffer` and its slices: shared calls write nothing; concurrent readers agree -/
namespace Verif.Ring
open Shared
variable {A H : Type}

/-- The calls on a slice that only look (src/ring_buffer/slice.rs:29-68, 201-204, 226-238). -/
inductive SliceQuery (A H : Type) where
  | len | items | fmt
  | get (i : Nat)
  | eqPrim (eq : A → A → Bool) (other : List A)
  | hash (h : A → List (Feed H))
/-- The calls that take a buffer by `&self` (src/ring_buffer/mod.rs:81-95, 319-334, 345-371, 770-798, 830-833, 891-903; iter.rs). `.slice` takes
a slice of the buffer, narrows it, and looks at it. -/
inductive Query (A H : Type) where
  | len | isEmpty | isFull | items | sizeHint | fmt
  | get (i : Nat) | index (i : Nat)
  | eqPrim (eq : A → A → Bool) (other : List A)
  | hash (h : A → List (Feed H))
  | clone (cl : A → Option A)
  | slice (lo hi : Bound) (cuts : List Cut) (q : SliceQuery A H)
/-- The calls that take two buffers by shared reference (src/ring_buffer/mod.rs:818-869). -/
inductive Query2 (A : Type) where
  | eq (eq : A → A → Bool)
  | partialCmp (cmp : A → A → Option Ordering)
  | cmp (cmp : A → A → Ordering)

/-- The calls on the model of the code. Threads do not use the bound `..=usize::MAX` (see C40). -/
def askSlice (E : Env) (N : Nat) (s : Span) : SliceQuery A H → M (Ring A) (Ans A H)
  | .len => do return .nat (← sliceLen E s)
  | .items => do return .refs (← sliceItems E N s)
  | .fmt => do return .fmt (← sliceFmt E N s)
  | .get i => do return .optRef (← sliceGet E N s i)
  | .eqPrim eq other => do return .bool (← sliceEqPrim E N eq s other)
  | .hash h => do return .feed (← sliceHash E N h s)
def ask (E : Env) (N : Nat) (dp : A → Bool) : Query A H → M (Ring A) (Ans A H)
  | .len => do return .nat (← getLen)
  | .isEmpty => do return .bool (← isEmpty)
  | .isFull => do return .bool (← isFull N)
  | .items => do return .refs (← items E N)
  | .sizeHint => do let h ← sizeHint; return .hint h.1 h.2
  | .fmt => do return .fmt (← fmt E N)
  | .get i => do return .optRef (← get E N i)
  | .index i => do return .ref (← index E N i)
  | .eqPrim eq other => do return .bool (← eqPrim E N eq other)
  | .hash h => do return .feed (← hash E N h)
  | .clone cl => do return .refs (← cloneThen (clone E N dp cl) (items E N))
  | .slice lo hi cuts q =>
    if Bound.regular E lo hi = true ∧ Cut.regular E cuts = true then do askSlice E N (← sliceVia E lo hi cuts) q
    else M.panic
def ask2 (E : Env) (N : Nat) : Query2 A → M (Ring A × Ring A) (Ans A H)
  | .eq eq => do return .bool (← eqRing E N eq)
  | .partialCmp c => do return .ord (← partialCmp E N c)
  | .cmp c => do return .ord (some (← cmp E N c))

/-- What a list of at most `N` items answers; `none` if the call panics. -/
def answerSlice : SliceQuery A H → List A → Ans A H
  | .len, l => .nat l.length
  | .items, l => .refs l
  | .fmt, l => .fmt [.text "RingBuffer", .list l]
  | .get i, l => .optRef l[i]?
  | .eqPrim eq other, l => .bool (decide (l.length = other.length) && seqEq eq l other)
  | .hash h, l => .feed (hashItems h l)
def answer (E : Env) (N : Nat) : Query A H → List A → Option (Ans A H)
  | .len, l => some (.nat l.length)
  | .isEmpty, l => some (.bool l.isEmpty)
  | .isFull, l => some (.bool (decide (l.length = N)))
  | .items, l => some (.refs l)
  | .sizeHint, l => some (.hint l.length (some l.length))
  | .fmt, l => some (.fmt [.text "RingBuffer", .list l])
  | .get i, l => some (.optRef l[i]?)
  | .index i, l => l[i]?.map .ref
  | .eqPrim eq other, l => some (.bool (decide (l.length = other.length) && seqEq eq l other))
  | .hash h, l => some (.feed (hashItems h l))
  | .clone cl, l => (l.mapM cl).map .refs
  | .slice lo hi cuts q, l =>
    if Bound.regular E lo hi = true ∧ Cut.regular E cuts = true then
      (Spec.window lo hi cuts l.length).map (fun w => answerSlice q ((l.take w.2).drop w.1))
    else none
def answer2 : Query2 A → List A → List A → Option (Ans A H)
  | .eq eq, l, k => some (.bool (decide (l.length = k.length) && seqEq eq l k))
  | .partialCmp c, l, k => some (.ord (seqPartialCmp c l k))
  | .cmp c, l, k => some (.ord (some (seqCmp c l k)))

section proof
variable {E : Env} {N : Nat} {dp : A → Bool} {σ ρ : Type} {part : σ → ρ}

theorem ro_getLen : ReadOnly (getLen : M (Ring A) Nat) := by unfold getLen; keeps
theorem k_rawFrom (i : Nat) : Keeps part (rawFrom E N i : M σ Nat) := by unfold rawFrom; keeps
theorem k_rawInc (i : Nat) : Keeps part (rawInc E N i : M σ Nat) := by unfold rawInc; keeps
theorem k_rawDec (i : Nat) : Keeps part (rawDec E N i : M σ Nat) := by unfold rawDec; keeps
theorem k_addLoop (f r : Nat) : Keeps part (addLoop E N f r : M σ Nat) := by
  induction f generalizing r with
  | zero => exact Keeps.diverge
  | succ f ih => unfold addLoop; exact Keeps.ite (Keeps.bind (Keeps.usub _ _ _) ih) (Keeps.pure _)
theorem k_rawAdd (i k : Nat) : Keeps part (rawAdd E N i k : M σ Nat) := by
  unfold rawAdd; exact Keeps.bind (Keeps.uadd _ _ _) (fun _ => Keeps.bind (k_addLoop _ _) k_rawFrom)
theorem ro_getOrigin : ReadOnly (getOrigin : M (Ring A) Nat) := by unfold getOrigin; keeps
theorem ro_raw (i : Nat) : ReadOnly (raw E N i : M (Ring A) Nat) := by unfold raw; exact Keeps.bind ro_getOrigin (fun _ => k_rawAdd _ _)
theorem ro_forceRead (i : Nat) : ReadOnly (forceRead E N i : M (Ring A) A) := by unfold forceRead getMem; keeps
theorem ro_range : ReadOnly (range E N : M (Ring A) IdxIter) := by
  unfold range
  exact Keeps.bind ro_getLen fun _ => Keeps.bind ro_getOrigin fun _ => Keeps.bind ro_getOrigin fun _ => Keeps.bind ro_getLen fun _ =>
    Keeps.bind (k_rawAdd _ _) fun _ => Keeps.pure _
theorem ro_iter : ReadOnly (iter E N : M (Ring A) IdxIter) := by
  unfold iter
  exact Keeps.bind ro_getOrigin fun _ => Keeps.bind ro_getOrigin fun _ => Keeps.bind ro_getLen fun _ => Keeps.bind (k_rawAdd _ _) fun _ =>
    Keeps.bind ro_getLen fun _ => Keeps.pure _
theorem ro_iterNext (it : IdxIter) : ReadOnly (iterNext E N it : M (Ring A) (Option (A × IdxIter))) := by
  unfold iterNext
  exact Keeps.ite (Keeps.pure _) (Keeps.bind (Keeps.usub _ _ _) fun _ => Keeps.bind (k_rawInc _) fun _ => Keeps.bind (ro_forceRead _) fun _ => Keeps.pure _)
theorem ro_iterNextBack (it : IdxIter) : ReadOnly (iterNextBack E N it : M (Ring A) (Option (A × IdxIter))) := by
  unfold iterNextBack
  exact Keeps.ite (Keeps.pure _) (Keeps.bind (Keeps.usub _ _ _) fun _ => Keeps.bind (k_rawDec _) fun _ => Keeps.bind (ro_forceRead _) fun _ => Keeps.pure _)
theorem ro_collectIter (f : Nat) (it : IdxIter) : ReadOnly (collectIter E N f it : M (Ring A) (List A)) := by
  induction f generalizing it with
  | zero => exact Keeps.diverge
  | succ f ih =>
    unfold collectIter
    refine Keeps.bind (ro_iterNext it) (fun r => ?_)
    split
    · exact Keeps.pure _
    · exact Keeps.bind (ih _) fun _ => Keeps.pure _
theorem ro_items : ReadOnly (items E N : M (Ring A) (List A)) := by
  unfold items; exact Keeps.bind ro_iter fun _ => ro_collectIter _ _
theorem ro_sliceLen (s : Span) : ReadOnly (sliceLen E s : M (Ring A) Nat) := by unfold sliceLen; keeps
theorem ro_sliceIter (s : Span) : ReadOnly (sliceIter E N s : M (Ring A) IdxIter) := by
  unfold sliceIter
  exact Keeps.bind ro_getOrigin fun _ => Keeps.bind (k_rawAdd _ _) fun _ => Keeps.bind ro_getOrigin fun _ => Keeps.bind (k_rawAdd _ _) fun _ =>
    Keeps.bind (ro_sliceLen _) fun _ => Keeps.bind (k_rawAdd _ _) fun _ => Keeps.bind (ro_sliceLen _) fun _ => Keeps.pure _
theorem ro_sliceItems (s : Span) : ReadOnly (sliceItems E N s : M (Ring A) (List A)) := by
  unfold sliceItems; exact Keeps.bind (ro_sliceIter s) fun _ => ro_collectIter _ _
theorem ro_getUnchecked (i : Nat) : ReadOnly (getUnchecked E N i : M (Ring A) A) := by
  unfold getUnchecked; exact Keeps.bind (ro_raw i) ro_forceRead
theorem ro_get (i : Nat) : ReadOnly (get E N i : M (Ring A) (Option A)) := by
  unfold get
  exact Keeps.bind ro_getLen fun _ => Keeps.ite (Keeps.pure _) (Keeps.bind (ro_getUnchecked i) fun _ => Keeps.pure _)
theorem ro_index (i : Nat) : ReadOnly (index E N i : M (Ring A) A) := by
  unfold index
  exact Keeps.bind ro_getLen fun _ => Keeps.bind (Keeps.panicIf _) fun _ => Keeps.bind (ro_raw i) ro_forceRead
theorem ro_sliceGet (s : Span) (i : Nat) : ReadOnly (sliceGet E N s i : M (Ring A) (Option A)) := by
  unfold sliceGet
  have h1 := ro_sliceLen (A := A) (E := E) s
  have h2 : ReadOnly (sliceGetUnchecked E N s i : M (Ring A) A) := by
    unfold sliceGetUnchecked; exact Keeps.bind (Keeps.uadd _ _ _) ro_getUnchecked
  keeps
theorem ro_slice (lo hi : Bound) : ReadOnly (slice E lo hi : M (Ring A) Span) := by
  have h := ro_getLen (A := A)
  have h1 : ReadOnly (parseStart lo : M (Ring A) Nat) := by unfold parseStart; keeps
  have h2 : ReadOnly (parseStop E hi : M (Ring A) Nat) := by unfold parseStop; keeps
  unfold slice; keeps
theorem ro_subSlice (s : Span) (lo hi : Bound) : ReadOnly (subSlice E s lo hi : M (Ring A) Span) := by
  have h1 : ReadOnly (subStart E s lo : M (Ring A) Nat) := by unfold subStart; keeps
  have h2 : ReadOnly (subStop E s hi : M (Ring A) Nat) := by unfold subStop; keeps
  unfold subSlice; keeps
theorem ro_splitAt (s : Span) (i : Nat) : ReadOnly (splitAt E s i : M (Ring A) (Span × Span)) := by
  have h1 := ro_sliceLen (A := A) (E := E) s
  unfold splitAt; keeps
theorem ro_narrow (cuts : List Cut) (s : Span) : ReadOnly (narrow E cuts s : M (Ring A) Span) := by
  induction cuts generalizing s with
  | nil => exact Keeps.pure _
  | cons k cuts ih =>
    cases k <;> unfold narrow
    · exact Keeps.bind (ro_subSlice _ _ _) ih
    · exact Keeps.bind (ro_splitAt _ _) fun _ => ih _
    · exact Keeps.bind (ro_splitAt _ _) fun _ => ih _
theorem ro_sliceVia (lo hi : Bound) (cuts : List Cut) : ReadOnly (sliceVia E lo hi cuts : M (Ring A) Span) := by
  unfold sliceVia; exact Keeps.bind (ro_slice lo hi) (ro_narrow cuts)
theorem keeps_clone (cl : A → Option A) : Keeps (·.1) (clone E N dp cl) := by
  unfold clone
  refine Keeps.bind (Keeps.of_readOnly (Keeps.onFst Keeps.get)) fun _ => Keeps.bind ?_ fun _ =>
    Keeps.bind (Keeps.of_readOnly (Keeps.onFst ro_range)) fun _ => Keeps.bind ?_ fun _ => Keeps.pure _
  · unfold new; exact Keeps.bind (k_rawFrom 0) fun _ => Keeps.pure _
  · exact Keeps.withLocal (part := fun s => s) (Keeps.onFst' Keeps.fst) Keeps.atFst

/-- C91. A call through a shared reference to a ring buffer writes nothing: on every buffer, in whatever state, it leaves every byte as it
was, whether it returns or panics. -/
theorem C91_shared_calls_write_nothing (q : Query A H) : ReadOnly (ask E N dp q) := by
  have h0 := ro_getLen (A := A)
  have h1 := ro_items (A := A) (E := E) (N := N)
  cases q with
  | clone cl => exact Keeps.bind (Keeps.cloneThen (keeps_clone cl)) fun _ => Keeps.pure _
  | get i => exact Keeps.bind (ro_get i) fun _ => Keeps.pure _
  | index i => exact Keeps.bind (ro_index i) fun _ => Keeps.pure _
  | slice lo hi cuts q =>
    refine Keeps.ite (Keeps.bind (ro_sliceVia lo hi cuts) fun s => ?_) Keeps.panic
    have h2 := ro_sliceItems (A := A) (E := E) (N := N) s
    have h3 := ro_sliceLen (A := A) (E := E) s
    cases q with
    | get i => exact Keeps.bind (ro_sliceGet s i) fun _ => Keeps.pure _
    | _ => unfold askSlice; (try unfold sliceFmt sliceEqPrim sliceHash); keeps
  | _ => unfold ask; (try unfold isEmpty isFull sizeHint fmt eqPrim hash); keeps
theorem C91_shared_calls_on_two_write_nothing (q : Query2 A) : ReadOnly (ask2 E N q : M (Ring A × Ring A) (Ans A H)) := by
  have h := ro_items (A := A) (E := E) (N := N)
  have h0 := ro_getLen (A := A)
  cases q <;> unfold ask2 <;> (first | unfold eqRing | unfold partialCmp | unfold cmp) <;> keeps
/-- C91. So do the borrowing iterators, at every step, `to_owned` of a slice, and comparisons between slices. -/
theorem C91_iterators_write_nothing (it : IdxIter) (s t : Span) (cl : A → Option A) (eq : A → A → Bool) (pc : A → A → Option Ordering) (co : A → A → Ordering) :
    ReadOnly (iterNext E N it : M (Ring A) _) ∧ ReadOnly (iterNextBack E N it : M (Ring A) _) ∧ Keeps (·.1) (sliceToOwned E N dp cl s) ∧
    ReadOnly (eqSlice E N eq s) ∧ ReadOnly (eqSlices E N eq s t) ∧ ReadOnly (slicePartialCmp E N pc s t) ∧ ReadOnly (sliceCmp E N co s t) := by
  have h0 := ro_getLen (A := A)
  have h1 := ro_items (A := A) (E := E) (N := N)
  have h2 := fun s => ro_sliceItems (A := A) (E := E) (N := N) s
  have h3 := fun s => ro_sliceLen (A := A) (E := E) s
  refine ⟨ro_iterNext it, ro_iterNextBack it, ?_, ?_, ?_, ?_, ?_⟩
  · have hl : ∀ f it, Keeps (fun s => s.1.2) (ownedLoop E N dp cl f it) := by
      intro f
      induction f with
      | zero => intro it; exact Keeps.diverge
      | succ f ih =>
        intro it
        unfold ownedLoop
        refine Keeps.bind (Keeps.of_readOnly (Keeps.onFst (Keeps.onSnd (ro_iterNext it)))) fun r => ?_
        split
        · exact Keeps.pure _
        · split
          · exact Keeps.panic
          · exact Keeps.bind Keeps.atFst fun _ => ih _
    unfold sliceToOwned
    refine Keeps.bind (Keeps.of_readOnly (Keeps.onFst (ro_sliceIter s))) fun _ => Keeps.bind ?_ fun _ => Keeps.bind ?_ fun _ => Keeps.pure _
    · unfold new; exact Keeps.bind (k_rawFrom 0) fun _ => Keeps.pure _
    · exact Keeps.withLocal (part := fun s => s) (hl _ _) Keeps.atFst
  · have := h2 s; have := h3 s; unfold eqSlice; keeps
  · have := h2 s; have := h3 s; have := h2 t; have := h3 t; unfold eqSlices; keeps
  · have := h2 s; have := h2 t; unfold slicePartialCmp; keeps
  · have := h2 s; have := h2 t; unfold sliceCmp; keeps

/-- C91. Threads that share ring buffers and call them through shared references: whatever the scheduler does, the buffers never change,
and every thread gets from each of its calls the answer that a list with the same contents gives. -/
theorem C91_readers_agree (h0 : 0 < N) (hW : 2 * N < E.W) (hd : ∀ a, dp a = false) :
    Agree (View E N) (ask E N dp) (ask2 E N) (answer E N : Query A H → List A → Option (Ans A H)) answer2 := by
  refine agree (fun q c l h => ?_) (fun q c l c' l' h h' => ?_)
  · have hr := h.rep hW
    cases q with
    | get i => simp [ask, answer, get_eq (E := E) hW hr]
    | index i =>
      cases hi : l[i]? with
      | some a =>
        have := (index_ref (E := E) hW hr i).of_ok (a := a) (t := l) (by simp [Spec.index, hi])
        obtain ⟨s, e, _⟩ := this
        obtain rfl := ((ro_index i) c).1 _ _ e
        simp [ask, answer, hi, e]
      | none =>
        have := (index_ref (E := E) hW hr i).of_panic (t := l) (by simp [Spec.index, hi])
        obtain ⟨s, e, _⟩ := this
        obtain rfl := ((ro_index i) c).2 _ e
        simp [ask, answer, hi, e]
    | clone cl =>
      cases hc : l.mapM cl with
      | some cs =>
        obtain ⟨d, e, hv, _⟩ := C36_clone (dp := dp) h0 hW h [] cs (mapM_some hc)
        simp [ask, answer, hc, cloneThen, unlogged, own, e, items_eq (E := E) hW (hv.rep hW)]
      | none =>
        obtain ⟨l₁, x, l₂, cs, rfl, h1, h2⟩ := mapM_none hc
        have e := C36_clone_panics (dp := dp) h0 hW l₁ l₂ x h [] cs h1 h2 (by simp [hd])
        simp [ask, answer, hc, cloneThen, unlogged, e]
    | slice lo hi cuts q =>
      by_cases hg : Bound.regular E lo hi = true ∧ Cut.regular E cuts = true
      · obtain ⟨k1, k2⟩ := C38_slice hW h lo hi cuts hg.1 hg.2
        cases hw : Spec.window lo hi cuts l.length with
        | none => simp [ask, answer, hg, hw, k2 hw]
        | some w =>
          obtain ⟨e, h1, h2⟩ := k1 w.1 w.2 hw
          have r := fun i => C38_reads hW h h1 h2 i
          have hlen : ((l.take w.2).drop w.1).length = w.2 - w.1 := by simp; omega
          cases q with
          | get i => simp [ask, answer, hg, hw, e, askSlice, answerSlice, (r i).2.2]
          | _ => simp [ask, answer, hg, hw, e, askSlice, answerSlice, (r 0).1, (r 0).2.1, sliceFmt, sliceEqPrim, sliceHash, Nat.min_eq_left h2]
      · simp only [ask, answer, if_neg hg]; rfl
    | _ => simp [ask, answer, getLen_eq hr, isEmpty_eq hr, isFull_eq hr, items_eq (E := E) hW hr, sizeHint_eq hr, fmt, eqPrim, hash]
  · have hr := h.rep hW
    have hr' := h'.rep hW
    cases q <;> simp [ask2, answer2, eqRing, partialCmp, cmp, getLen_eq hr, getLen_eq hr', items_eq (E := E) hW hr, items_eq (E := E) hW hr']
end proof

section examples
/-- Two threads on two shared buffers, one of which wraps around the end of its memory; one of the calls panics. -/
def readers : Nat → Thread (Call (Query Nat Nat) (Query2 Nat)) (Ans Nat Nat)
  | 0 => ⟨[.one 0 .len, .one 0 (.index 5), .two 0 1 (.cmp compare), .one 0 (.slice (.included 1) .unbounded [.left 1] .items)], []⟩
  | 1 => ⟨[.one 1 .items, .one 0 (.clone some)], []⟩
  | _ => ⟨[], []⟩
def sharedRings : Nat → Ring Nat := fun h => if h = 0 then seam else ⟨1, 0, fun _ => none⟩
example : ∀ h, View Chunk.dbg64 3 (sharedRings h) (if h = 0 then [10, 20] else []) := by
  intro h; unfold sharedRings; split
  · exact ⟨rfl, by decide, by decide⟩
  · exact ⟨rfl, by decide, by decide⟩
example : (interleave (call (ask Chunk.dbg64 3 Fuzz.nodrop) (ask2 Chunk.dbg64 3)) [1, 0, 0, 1, 7, 0, 0] (sharedRings, readers)).map
      (fun s => ((s.2 0).got, (s.2 1).got)) =
    some ([some (.nat 2), none, some (.ord (some .gt)), some (.refs [20])], [some (.refs []), some (.refs [10, 20])]) := by decide +kernel
end examples
end Verif.Ring
