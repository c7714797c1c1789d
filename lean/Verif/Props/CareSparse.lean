import Verif.CareSpec
import Verif.Props.SparseOps
/-
C109 for the sparse chunk.
-/
namespace Verif.Sparse
variable {A τ : Type} {N : Nat} {el : Elem τ A}

theorem each_dropBy {c : Sparse A} {m : SMap A} (h : Rep N c m) (ks : List Nat) (hk : ∀ i ∈ ks, (m i).isSome = true) (u : τ) :
    each (dropAtBy N el) ks (c, u) = (el.dropEach (ks.filterMap m) u).mapState (fun u' => (c, u')) := by
  induction ks generalizing u with
  | nil => rfl
  | cons i ks ih =>
    obtain ⟨a, ha⟩ := Option.isSome_iff_exists.1 (hk i (by simp))
    rw [List.filterMap_cons_some ha]
    simp only [each, dropAtBy, M.bind_run, M.onFst_run, forceRead_eq h ha, Out.mapState_ok, Out.andThen_ok, M.onSnd_run, Elem.dropEach]
    cases hx : el.drop a u with
    | ok v u' =>
      simp only [Out.mapState_ok, Out.andThen_ok]
      exact ih (fun j hj => hk j (by simp [hj])) u'
    | _ => rfl

theorem dropBy_same {c : Sparse A} {m : SMap A} (h : Rep N c m) (u : τ) :
    dropBy N el (c, u) = (el.dropEach (m.vals N) u).mapState (fun u' => (c, u')) := by
  simp only [dropBy, M.bind_run, M.onFst_run, getMap, Out.mapState_ok, Out.andThen_ok]
  rw [forBits_eq, keys_eq h, each_dropBy h _ (fun i hi => (mem_keys.1 hi).2), keys_filterMap]

/-- C109. Dropping a sparse chunk runs the destructors of its items in index order, on the user's state, stops at the first that panics, and does nothing
else. -/
theorem C109_drop {c : Sparse A} {m : SMap A} (h : View N c m) (u : τ) :
    Out.Same Eq (fun s w => s.1 = c ∧ s.2 = w) (dropBy N el (c, u)) (el.dropEach (m.vals N) u) := by
  rw [dropBy_same h.rep]
  cases el.dropEach (m.vals N) u <;> simp [Out.Same]

theorem each_cloneBy {c : Sparse A} {m : SMap A} (h : Rep N c m) (ks : List Nat)
    (hk : ∀ i ∈ ks, (m i).isSome = true) (hn : ks.Nodup) (o : Sparse A) (mo : SMap A) (ho : Rep N o mo)
    (hf : ∀ i ∈ ks, mo i = none) (done : List A) (u : τ) :
    Out.Same Eq (fun s w => (∃ bs, w.1 = done ++ bs ∧ bs.length ≤ ks.length ∧ Rep N s.1.1 (SMap.overwrite ks bs mo)) ∧ s.1.2 = c ∧ s.2 = w.2)
      (each (cloneBodyBy N el) ks ((o, c), u)) (el.cloneEach (ks.filterMap m) (done, u)) := by
  induction ks generalizing o mo u done with
  | nil =>
    simp only [each, M.pure_run, List.filterMap_nil, Elem.cloneEach, Out.Same]
    exact ⟨trivial, ⟨[], by simp, by simp, ho⟩, trivial, trivial⟩
  | cons i ks ih =>
    obtain ⟨a, ha⟩ := Option.isSome_iff_exists.1 (hk i (by simp))
    have hi := h.lt ha
    rw [List.filterMap_cons_some ha]
    have hx : index N i c = .ok a c := by simp [index, get_eq h, ha, unwrap]
    simp only [each, M.bind_run, cloneBodyBy, M.onFst_run, M.onSnd_run, hx, Out.mapState_ok, Out.andThen_ok, Elem.cloneEach]
    cases hc : el.clone a u with
    | ok b u' =>
      obtain ⟨o', e, h2⟩ : ∃ o', insert N i b o = .ok none o' ∧ Rep N o' (SMap.upd mo i b) := by
        have h1 := insert_ref ho i b
        simp only [MSpec.insert, hi, if_true, hf i (by simp)] at h1
        exact h1.of_ok rfl
      have e2 : insertOwnedBy N el i b (o, u') = .ok () (o', u') := by
        simp [insertOwnedBy, M.onUnwind, e, dropOptBy]
      simp only [Out.mapState_ok, Out.andThen_ok, M.atFst, e2, M.onFst_run, M.bind_run, M.get_run, M.set_run]
      rw [List.nodup_cons] at hn
      have := ih (fun j hj => hk j (by simp [hj])) hn.2 o' _ h2 (fun j hj => by
        simp only [SMap.upd]
        rw [if_neg (by rintro rfl; exact hn.1 hj)]
        exact hf j (by simp [hj])) (done ++ [b]) u'
      refine this.imp (fun _ _ h => h) ?_
      rintro s w ⟨⟨bs, h3, h4, h5⟩, h6⟩
      exact ⟨⟨b :: bs, by simpa using h3, by simpa using h4, h5⟩, h6⟩
    | panic u' =>
      simp only [Out.mapState_panic, Out.andThen_panic, Out.Same]
      refine ⟨⟨[], by simp, by simp, ?_⟩, trivial, trivial⟩
      simpa [SMap.overwrite] using ho
    | _ => simp [Out.Same]

theorem overwrite_isSome (ks : List Nat) (vs : List A) (mo : SMap A) (hn : ks.Nodup) (hl : vs.length = ks.length) (i : Nat) (hi : i ∈ ks) :
    (SMap.overwrite ks vs mo i).isSome = true := by
  induction ks generalizing vs mo with
  | nil => simp at hi
  | cons k ks ih =>
    cases vs with
    | nil => simp at hl
    | cons v vs =>
      rw [List.nodup_cons] at hn
      rw [SMap.overwrite]
      by_cases h : i = k
      · subst h
        rw [overwrite_not_mem _ _ _ _ hn.1]
        simp [SMap.upd]
      · exact ih vs _ hn.2 (by simpa using hl) (by simpa [h] using hi)

/-- C109. `clone` calls `clone` of the items in index order; the result has the same indices and shows what they returned; the original is unchanged.
If one panics, the clones made so far are destroyed one by one and the panic goes on. -/
theorem C109_clone {c : Sparse A} {m : SMap A} (h : View N c m) (u : τ) :
    Out.Same (fun d bs => ∃ m', View N d m' ∧ m'.keys N = m.keys N ∧ m'.vals N = bs) (fun s w => s.1 = c ∧ s.2 = w)
      (cloneBy N el (c, u)) (Care.clone el el.dropEach (m.vals N) u) := by
  have r := h.rep
  have hb := each_cloneBy (el := el) r (m.keys N) (fun i hi => (mem_keys.1 hi).2) (keys_nodup m) new SMap.empty (Rep.empty _) (fun _ _ => rfl) [] u
  simp only [List.nil_append] at hb
  rw [keys_filterMap] at hb
  have hfin := Care.finish (el := el) (run := el.dropEach) (l := m.vals N) (t := (new : Sparse A)) (c := c) (u := u)
    (V := fun d bs => ∃ m', View N d m' ∧ m'.keys N = m.keys N ∧ m'.vals N = bs) (P := fun d bs => ∃ m', Rep N d m' ∧ m'.vals N = bs)
    (body := each (cloneBodyBy N el) (m.keys N)) (dtor := M.atFst (dropBy N el)) ?_ ?_ ?_ ?_
  · rw [M.bind_run] at hfin
    simp only [cloneBy, M.bind_run, M.onFst_run, getMap, Out.mapState_ok, Out.andThen_ok, forBits_eq, keys_eq r]
    exact hfin
  · intro v s e
    obtain ⟨v', w, e1, -, ⟨bs, e2, e3, e4⟩, e5⟩ := hb.ok_inv e
    have hlen := Elem.cloneEach_length el _ _ _ _ _ e1
    subst e2
    have hl : w.1.length = (m.keys N).length := by
      rw [hlen, ← keys_filterMap, filterMap_length_of (fun i hi => (mem_keys.1 hi).2)]; simp
    refine ⟨w, e1, ⟨_, e4.view, ?_, overwrite_vals m _ e3⟩, e5⟩
    unfold SMap.keys
    apply List.filter_congr
    intro i hi
    by_cases hm : i ∈ m.keys N
    · rw [show List.filter (fun i => (m i).isSome) (List.range N) = m.keys N from rfl, overwrite_isSome _ _ _ (keys_nodup m) hl i hm, (mem_keys.1 hm).2]
    · rw [show List.filter (fun i => (m i).isSome) (List.range N) = m.keys N from rfl, overwrite_not_mem _ _ _ _ hm]
      have : (m i).isSome = false := by
        rw [mem_keys] at hm
        simp only [List.mem_range] at hi
        simpa [hi] using hm
      rw [this]; rfl
  · intro s e
    obtain ⟨w, e1, ⟨bs, e2, e3, e4⟩, e5⟩ := hb.panic_inv e
    subst e2
    exact ⟨w, e1, ⟨_, e4, overwrite_vals m _ e3⟩, e5⟩
  · refine ⟨?_, ?_, ?_⟩ <;> intro e <;> rw [e] at hb <;> cases hy : el.cloneEach (m.vals N) ([], u) <;> simp_all [Out.Same]
  · rintro d bs u' ⟨m', hd, rfl⟩
    simp only [M.atFst, dropBy_same hd]
    cases el.dropEach (m'.vals N) u' <;> simp [Out.Same]

/-! ### The calls -/

/-- C109. Dropping calls the destructor of every item once, in index order; when one panics, those after it are not called (they are leaked). -/
theorem C109_drop_calls {c : Sparse A} {m : SMap A} (h : View N c m) (u : τ) (log : List (Call A)) :
    (∀ s, dropBy N el.traced (c, (u, log)) = .ok () s → s.2.2 = log ++ (m.vals N).map .drop) ∧
    (∀ s, dropBy N el.traced (c, (u, log)) = .panic s → ∃ k, k < (m.vals N).length ∧ s.2.2 = log ++ ((m.vals N).take (k + 1)).map .drop) := by
  have hc := Elem.dropEach_calls el (m.vals N) u log
  rw [dropBy_same h.rep]
  cases hx : el.traced.dropEach (m.vals N) (u, log) <;> simp_all

/-- C109. `clone` calls `clone` of every item once, in index order.  When one panics, the ones after it are not called, and every clone already made is
destroyed, once, in order. -/
theorem C109_clone_calls {c : Sparse A} {m : SMap A} (h : View N c m) (u : τ) (log : List (Call A)) :
    (∀ d s, cloneBy N el.traced (c, (u, log)) = .ok d s → ∃ m', View N d m' ∧ m'.keys N = m.keys N ∧
      s.2.2 = log ++ Call.clones (m.vals N) (m'.vals N)) ∧
    (∀ s, cloneBy N el.traced (c, (u, log)) = .panic s → ∃ l₁ a l₂ bs, m.vals N = l₁ ++ a :: l₂ ∧ bs.length = l₁.length ∧
      s.2.2 = log ++ Call.clones l₁ bs ++ [.clone a none] ++ bs.map .drop) := by
  have hc := Care.clone_calls el el.traced.dropEach (List.map .drop) (fun bs u lg s e => (Elem.dropEach_calls el bs u lg).1 s e) (m.vals N) u log
  have hs := C109_clone (el := el.traced) h (u, log)
  refine ⟨fun d s e => ?_, fun s e => ?_⟩
  · obtain ⟨bs, t, e1, ⟨m', e2, e3, rfl⟩, e4⟩ := hs.ok_inv e
    obtain ⟨h1, h2⟩ := hc.1 _ t e1
    exact ⟨m', e2, e3, by rw [e4.2]; exact h2⟩
  · obtain ⟨t, e1, e2⟩ := hs.panic_inv e
    obtain ⟨l₁, a, l₂, bs, h0, h1, h2⟩ := hc.2 t e1
    exact ⟨l₁, a, l₂, bs, h0, h1, by rw [e2.2]; exact h2⟩

/-! ### The elements of the other theorems are a special case -/

/-- C109. With destructors that log and perhaps panic, and a pure `clone` that may panic, these are the methods of the model used in all other theorems. -/
theorem C109_plain (dp : A → Bool) (cl : A → Option A) :
    dropBy N (Elem.plain dp cl) = drop N dp ∧ cloneBy N (Elem.plain dp cl) = clone N dp cl := by
  have h1 : dropAtBy N (Elem.plain dp cl) = dropAt N dp := by
    funext i; unfold dropAtBy dropAt; simp only [Elem.plain_drop]
  have hd : dropBy N (Elem.plain dp cl) = drop N dp := by
    unfold dropBy drop; simp only [h1]
  have h2 : cloneBodyBy N (Elem.plain dp cl) = cloneBody N dp cl := by
    funext i
    unfold cloneBodyBy cloneBody
    simp only [Elem.plain_clone]
    congr 1
    funext a
    cases cl a with
    | none => rfl
    | some b =>
      have h3 : insertOwnedBy N (Elem.plain dp cl) i b = insertOwned N dp i b := by
        unfold insertOwnedBy insertOwned
        simp only [Elem.plain_drop]
        congr 1
        funext o
        cases o with
        | none => rfl
        | some a => simp only [dropOptBy, dropOpt, Elem.plain_drop]
      simp only [insertClone, ← h3]
      rfl
  refine ⟨hd, ?_⟩
  unfold cloneBy clone
  simp only [h2, hd]
  rfl

/-! ### C109 is not vacuous -/

/-- Items whose clone is a fresh number, the third clone panicking, and whose destructors count, the second panicking. -/
def fussy : Elem (Nat × Nat) Nat where
  clone _ := fun s => if s.1 = 3 then .panic s else .ok (100 + s.1) (s.1 + 1, s.2)
  drop _ := fun s => if s.2 = 1 then .panic (s.1, 2) else .ok () (s.1, s.2 + 1)

/-- C109 is not vacuous: `sample` (items at 1 and 3) clones to 100 and 101 there; when more clones have been made before, its second clone panics and the
first is destroyed; dropping it panics at the second item. -/
example : (∃ d, cloneBy 4 fussy (sample, (0, 0)) = .ok d (sample, (2, 0)) ∧ entries 4 d = .ok [(1, 100), (3, 101)] d) ∧
    cloneBy 4 fussy (sample, (2, 0)) = .panic (sample, (3, 1)) ∧
    dropBy 4 fussy (sample, (0, 0)) = .panic (sample, (0, 2)) ∧ dropBy 4 fussy (sample, (0, 2)) = .ok () (sample, (0, 4)) :=
  ⟨⟨_, rfl, rfl⟩, rfl, rfl, rfl⟩

end Verif.Sparse
