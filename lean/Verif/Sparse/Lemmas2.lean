import Verif.Sparse.Lemmas
/-
Destructor, construction, cloning and comparison of the model of `SparseChunk`.
-/
namespace Verif
namespace Sparse
variable {A σ : Type} {N : Nat}

/-! ### Dropping -/

/-- What sequential destructor runs over `d` do to the log. -/
def seqDrop (dp : A → Bool) (d : List A) : M (σ × List A) Unit := fun s =>
  if d.any dp = true then .panic (s.1, s.2 ++ d.take (d.findIdx dp + 1)) else .ok () (s.1, s.2 ++ d)

theorem seqDrop_cons (dp : A → Bool) (a : A) (d : List A) (s : σ × List A) :
    seqDrop dp (a :: d) s = (dropOne dp a s).andThen (fun _ s' => seqDrop dp d s') := by
  unfold seqDrop dropOne
  cases h : dp a <;> simp [h, List.findIdx_cons]

theorem each_drop {c : Sparse A} {m : SMap A} (h : Rep N c m) (dp : A → Bool) (ks : List Nat)
    (hk : ∀ i ∈ ks, (m i).isSome = true) (log : List A) :
    each (dropAt N dp) ks (c, log) = seqDrop dp (ks.filterMap m) (c, log) := by
  induction ks generalizing log with
  | nil => simp [each, seqDrop]
  | cons i ks ih =>
    obtain ⟨a, ha⟩ := Option.isSome_iff_exists.1 (hk i (by simp))
    rw [List.filterMap_cons_some ha, seqDrop_cons]
    simp only [each, dropAt, M.bind_run, M.onFst_run, forceRead_eq h ha, Out.mapState_ok, Out.andThen_ok]
    have e := fun l => ih (fun j hj => hk j (by simp [hj])) l
    unfold dropOne
    cases hd : dp a <;> simp [e]

theorem drop_eq {c : Sparse A} {m : SMap A} (h : Rep N c m) (dp : A → Bool) (log : List A) :
    drop N dp (c, log) = seqDrop dp (m.vals N) (c, log) := by
  simp only [drop, M.bind_run, M.onFst_run, getMap, Out.mapState_ok, Out.andThen_ok]
  rw [forBits_eq, keys_eq h, each_drop h dp _ (fun i hi => (mem_keys.1 hi).2), keys_filterMap]

theorem drop_ref {c : Sparse A} {m : SMap A} (h : Rep N c m) (dp : A → Bool) (log : List A) :
    Ref (RelLog (Rep N)) (drop N dp (c, log)) (MSpec.drop N dp (m, log)) := by
  rw [drop_eq h]
  unfold seqDrop MSpec.drop
  dsimp only
  split
  · exact ⟨_, rfl, h, rfl⟩
  · exact ⟨_, rfl, h, rfl⟩

theorem dropLocal_eq {c : Sparse A} {m : SMap A} (h : Rep N c m) (dp : A → Bool) (s : σ) (log : List A) :
    dropLocal N dp ((c, s), log) = seqDrop dp (m.vals N) ((c, s), log) := by
  unfold dropLocal M.atFst
  rw [drop_eq h]
  unfold seqDrop
  dsimp only
  split <;> rfl

/-! ### Functions with a local chunk -/

/-- What becomes of a function that owns a local chunk, given what its body did: the chunk is moved out, or dropped if the body
panicked. -/
def localOut {D α : Type} (N : Nat) (dp : A → Bool) : Out ((SMap A × D) × List A) α → Out (D × List A) (SMap A)
  | .ok _ y => .ok y.1.1 (y.1.2, y.2)
  | .panic y => if (y.1.1.vals N).any dp = true then .abort else .panic (y.1.2, y.2 ++ y.1.1.vals N)
  | .abort => .abort
  | .ub => .ub
  | .diverge => .diverge

theorem local_ref {C D α : Type} {R : C → D → Prop} {dp : A → Bool} {c0 : Sparse A} {s : C} {log : List A}
    {body : M ((Sparse A × C) × List A) α} {o' : Out ((SMap A × D) × List A) α}
    (hb : Ref (fun x y => Rep N x.1.1 y.1.1 ∧ R x.1.2 y.1.2 ∧ x.2 = y.2) (body ((c0, s), log)) o') :
    RefV (Rep N) (RelLog R) ((do
      let r ← M.withLocal c0 body (dropLocal N dp)
      return r.2 : M (C × List A) (Sparse A)) (s, log)) (localOut N dp o') := by
  simp only [M.bind_run, M.withLocal]
  cases hx : body ((c0, s), log) <;> rw [hx] at hb <;> simp only [Ref, Sat] at hb
  · obtain ⟨y, e, h1, h2, h3⟩ := hb
    subst e
    exact ⟨_, _, rfl, h1, h2, h3⟩
  · obtain ⟨y, e, h1, h2, h3⟩ := hb
    subst e
    rename_i x
    obtain ⟨⟨x1, x2⟩, x3⟩ := x
    dsimp only at h1 h2 h3
    subst h3
    simp only [dropLocal_eq h1, seqDrop]
    by_cases ha : (y.1.1.vals N).any dp = true
    · simp [localOut, ha, RefV, Sat]
    · simp only [localOut, ha]
      exact ⟨_, rfl, h2, rfl⟩
  · subst hb; simp [RefV, Sat, localOut]

/-! ### insert as a statement -/

theorem insertOwned_ref {c : Sparse A} {m : SMap A} (h : Rep N c m) (dp : A → Bool) (i : Nat) (v : A) (log : List A) :
    Ref (RelLog (Rep N)) (insertOwned N dp i v (c, log))
      (if i < N then
        match m i with
        | none => .ok () (m.upd i (some v), log)
        | some a => if dp a = true then .panic (m.upd i (some v), log ++ [a]) else .ok () (m.upd i (some v), log ++ [a])
      else if dp v = true then .abort else .panic (m, log ++ [v])) := by
  have hr := insert_ref h i v
  unfold insertOwned
  simp only [M.bind_run]
  unfold M.onUnwind
  simp only [M.onFst_run]
  unfold MSpec.insert at hr
  by_cases hi : i < N
  · rw [if_pos hi] at hr ⊢
    obtain ⟨c', e, h1⟩ := hr.of_ok rfl
    rw [e]
    cases hm : m i with
    | none => exact ⟨_, rfl, h1, rfl⟩
    | some a =>
      simp only [Out.mapState_ok, Out.andThen_ok, dropOpt, dropOne]
      cases dp a
      · exact ⟨_, rfl, h1, rfl⟩
      · exact ⟨_, rfl, h1, rfl⟩
  · rw [if_neg hi] at hr ⊢
    obtain ⟨c', e, h1⟩ := hr.of_panic rfl
    rw [e]
    simp only [Out.mapState_panic, dropOne]
    cases dp v
    · exact ⟨_, rfl, h1, rfl⟩
    · simp [Ref, Sat]

theorem atFst_ref {C D : Type} {R : C → D → Prop} {x : M (Sparse A × List A) Unit} {o' : Out (SMap A × List A) Unit} {c : Sparse A} {s : C} {t : D} {log : List A}
    (hR : R s t) (h : Ref (RelLog (Rep N)) (x (c, log)) o') :
    Ref (fun x y => Rep N x.1.1 y.1.1 ∧ R x.1.2 y.1.2 ∧ x.2 = y.2) (M.atFst x ((c, s), log))
      (o'.mapState (fun p => ((p.1, t), p.2))) := by
  unfold M.atFst
  cases hx : x (c, log) <;> rw [hx] at h <;> simp only [Ref, Sat] at h
  · obtain ⟨y, rfl, h1, h2⟩ := h; exact ⟨_, rfl, h1, hR, h2⟩
  · obtain ⟨y, rfl, h1, h2⟩ := h; exact ⟨_, rfl, h1, hR, h2⟩
  · subst h; simp [Ref, Sat]

theorem RefV.forget {C D : Type} {R : C → D → Prop} {x : Out (Unit × List A) C} {y : Out (Unit × List A) D}
    (h : RefV R (RelLog (A := A) (C := Unit) Eq) x y) : RefV R Eq (x.mapState (·.2)) (y.mapState (·.2)) := by
  cases x <;> simp only [RefV, Sat] at h
  · obtain ⟨b, t, rfl, h1, h2⟩ := h; exact ⟨_, _, rfl, h1, h2.2⟩
  · obtain ⟨t, rfl, h2⟩ := h; exact ⟨_, rfl, h2.2⟩
  · subst h; simp [RefV, Sat]

theorem any_vals_empty (dp : A → Bool) : ((SMap.empty : SMap A).vals N).any dp = false := by
  rw [List.any_eq_false]; intro a ha; simp [SMap.vals, SMap.empty] at ha

theorem vals_empty : (SMap.empty : SMap A).vals N = [] := by
  simp [SMap.vals, SMap.empty]

theorem range_split {i : Nat} (hi : i < N) : List.range N = List.range i ++ i :: List.range' (i + 1) (N - i - 1) := by
  rw [List.range_eq_range', List.range_eq_range']
  have : N = i + (1 + (N - i - 1)) := by omega
  conv => lhs; rw [this]
  rw [← List.range'_append_1, Nat.zero_add]
  congr 1
  rw [Nat.add_comm 1]; rfl

/-- The elements of a map changed at one index. -/
theorem vals_upd {i : Nat} (hi : i < N) (m : SMap A) (o : Option A) :
    (m.upd i o).vals N = (List.range i).filterMap m ++ (o.toList ++ (List.range' (i + 1) (N - i - 1)).filterMap m) := by
  unfold SMap.vals
  rw [range_split hi, List.filterMap_append]
  congr 1
  · apply filterMap_congr'
    intro j hj
    simp at hj
    simp only [SMap.upd]; rw [if_neg (by omega)]
  · have h1 : (m.upd i o) i = o := by simp [SMap.upd]
    have h2 : (List.range' (i + 1) (N - i - 1)).filterMap (m.upd i o) = (List.range' (i + 1) (N - i - 1)).filterMap m := by
      apply filterMap_congr'
      intro j hj
      simp at hj
      simp only [SMap.upd]; rw [if_neg (by omega)]
    rw [List.filterMap_cons, h1, h2]
    cases o <;> rfl

theorem upd_self (m : SMap A) (i : Nat) : m.upd i (m i) = m := by
  funext j; simp only [SMap.upd]; split
  · rename_i h; rw [h]
  · rfl

theorem vals_at {i : Nat} (hi : i < N) (m : SMap A) :
    m.vals N = (List.range i).filterMap m ++ ((m i).toList ++ (List.range' (i + 1) (N - i - 1)).filterMap m) := by
  have := vals_upd hi m (m i)
  rwa [upd_self] at this

theorem filterMap_empty (l : List Nat) : l.filterMap (SMap.empty : SMap A) = [] := by
  simp [SMap.empty]

theorem vals_single {i : Nat} (hi : i < N) (v : A) : ((SMap.empty : SMap A).upd i (some v)).vals N = [v] := by
  rw [vals_upd hi, filterMap_empty, filterMap_empty]; rfl

theorem unit_ref (dp : A → Bool) (i : Nat) (v : A) (log : List A) :
    RefV (Rep N) Eq (unit N dp i v log) (MSpec.unit N dp i v log) := by
  have h := local_ref (N := N) (dp := dp) (log := log) (R := (Eq : Unit → Unit → Prop)) (s := ())
    (atFst_ref (R := (Eq : Unit → Unit → Prop)) (s := ()) (t := ()) rfl
      (insertOwned_ref (Rep.empty Mem.uninit) dp i v log))
  have := RefV.forget h
  unfold unit MSpec.unit
  refine cast (congrArg _ ?_) this
  by_cases hi : i < N
  · simp [hi, SMap.empty, localOut]
  · simp only [hi, if_false]
    cases hd : dp v <;> simp [vals_empty, localOut]

theorem pair_ref (dp : A → Bool) (i : Nat) (v : A) (j : Nat) (w : A) (log : List A) :
    RefV (Rep N) Eq (pair N dp i v j w log) (MSpec.pair N dp i v j w log) := by
  have hb : Ref (RelLog (Rep N)) ((do
      M.onUnwind (insertOwned N dp i v) (dropOne dp w)
      insertOwned N dp j w : M (Sparse A × List A) Unit) (new, log))
      (if N ≤ i then if dp v || dp w then .abort else .panic (SMap.empty, log ++ [v, w])
       else if N ≤ j then if dp w = true then .abort else .panic (SMap.empty.upd i (some v), log ++ [w])
       else if i = j then if dp v = true then .panic (SMap.empty.upd j (some w), log ++ [v])
         else .ok () (SMap.empty.upd j (some w), log ++ [v])
       else .ok () ((SMap.empty.upd i (some v)).upd j (some w), log)) := by
    have h1 := insertOwned_ref (N := N) (Rep.empty Mem.uninit) dp i v log
    simp only [M.bind_run, M.onUnwind, new]
    by_cases hi : i < N
    · rw [if_neg (by omega)]
      simp only [hi, if_true, SMap.empty] at h1
      obtain ⟨⟨c, lg⟩, e, h2, h3⟩ := h1.of_ok rfl
      dsimp only at h2 h3
      subst h3
      rw [e]
      simp only [Out.andThen_ok]
      have h4 := insertOwned_ref h2 dp j w lg
      by_cases hj : j < N
      · rw [if_neg (by omega)]
        by_cases hij : i = j
        · subst hij
          have e3 : ((SMap.empty : SMap A).upd i (some v)) i = some v := by simp [SMap.upd]
          simp only [hi, if_true, e3] at h4
          have e2 : ((SMap.empty : SMap A).upd i (some v)).upd i (some w) = (SMap.empty : SMap A).upd i (some w) := by
            funext k; simp only [SMap.upd, SMap.empty]; split <;> rfl
          rw [e2] at h4
          simp only [if_true]
          exact h4
        · have hji : j ≠ i := fun h => hij h.symm
          have e3 : ((SMap.empty : SMap A).upd i (some v)) j = none := by simp [SMap.upd, hji, SMap.empty]
          simp only [hj, if_true, e3] at h4
          simp only [hij, if_false]
          exact h4
      · rw [if_pos (by omega)]
        simp only [hj, if_false] at h4
        exact h4
    · rw [if_pos (by omega)]
      simp only [hi, if_false] at h1
      cases hv : dp v
      · rw [hv] at h1
        obtain ⟨⟨c, lg⟩, e, h2, h3⟩ := h1.of_panic rfl
        dsimp only at h2 h3
        subst h3
        rw [e]
        simp only [dropOne, Bool.false_or]
        cases hw : dp w
        · exact ⟨_, rfl, h2, by simp⟩
        · simp [Ref, Sat]
      · rw [hv] at h1
        rw [h1.of_abort rfl]
        simp [Ref, Sat]
  have h := local_ref (N := N) (dp := dp) (log := log) (R := (Eq : Unit → Unit → Prop)) (s := ())
    (atFst_ref (R := (Eq : Unit → Unit → Prop)) (s := ()) (t := ()) rfl hb)
  have := RefV.forget h
  unfold pair MSpec.pair
  refine cast (congrArg _ ?_) this
  by_cases hi : N ≤ i
  · simp only [hi, if_true]
    cases hv : dp v <;> cases hw : dp w <;> simp [localOut, vals_empty]
  · have hi' : i < N := by omega
    simp only [hi, if_false]
    by_cases hj : N ≤ j
    · simp only [hj, if_true]
      cases hw : dp w <;> cases hv : dp v <;> simp [localOut, vals_single hi', hv]
    · have hj' : j < N := by omega
      simp only [hj, if_false]
      by_cases hij : i = j
      · simp only [hij, if_true]
        cases hv : dp v <;> cases hw : dp w <;> simp [localOut, vals_single hj', hw]
      · simp [hij, localOut]

/-! ### from_iter -/

theorem unwind_ok {α : Type} {x : M σ α} {k : M σ Unit} {s s' : σ} {a : α} (h : x s = .ok a s') : M.onUnwind x k s = .ok a s' := by
  simp [M.onUnwind, h]
theorem unwind_abort {α : Type} {x : M σ α} {k : M σ Unit} {s : σ} (h : x s = .abort) : M.onUnwind x k s = .abort := by
  simp [M.onUnwind, h]
theorem unwind_drop {α : Type} {x : M (σ × List A) α} {dp : A → Bool} {l : List A} {s s' : σ × List A} (h : x s = .panic s') :
    M.onUnwind x (dropSlice dp l) s = if l.any dp = true then .abort else .panic (s'.1, s'.2 ++ l) := by
  simp only [M.onUnwind, h, dropSlice]
  by_cases h : l.any dp = true
  · rw [if_pos h]
    have : l.countP dp ≠ 0 := by
      rw [Ne, List.countP_eq_zero]; intro hh
      simp only [List.any_eq_true] at h
      obtain ⟨x, hx, hd⟩ := h
      exact hh x hx hd
    cases hc : l.countP dp with
    | zero => exact absurd hc this
    | succ n => cases n <;> rfl
  · rw [if_neg h]
    have : l.countP dp = 0 := by
      rw [List.countP_eq_zero]; intro a ha hd
      exact h (by rw [List.any_eq_true]; exact ⟨a, ha, hd⟩)
    simp only [this]

theorem fillLoop_ref (dp : A → Bool) (it : It (Option A)) {c : Sparse A} {m : SMap A} (h : Rep N c m) (i : Nat)
    (hm : ∀ j, i ≤ j → m j = none) (log : List A) :
    Ref (RelLog (Rep N)) (fillLoop N dp i it (c, log)) (MSpec.fill N dp i it (m, log)) := by
  induction it generalizing c m i log with
  | nil => exact ⟨_, rfl, h, rfl⟩
  | cons e r ih =>
    cases e with
    | panic =>
      simp only [fillLoop, MSpec.fill, MSpec.panicDropping]
      rw [unwind_drop (M.panic_run _)]
      by_cases hr : (MSpec.owned r).any dp = true
      · rw [if_pos hr, if_pos (show (ownedOpt r).any dp = true from hr)]; simp only [Ref, Sat]
      · rw [if_neg hr, if_neg (show ¬ (ownedOpt r).any dp = true from hr)]; exact ⟨_, rfl, h, rfl⟩
    | item o =>
      cases o with
      | none =>
        simp only [fillLoop, MSpec.fill]
        exact ih h (i + 1) (fun j hj => hm j (by omega)) log
      | some v =>
        have h1 := insertOwned_ref h dp i v log
        simp only [fillLoop, MSpec.fill, M.bind_run]
        by_cases hi : i < N
        · simp only [hi, if_true, hm i (Nat.le_refl _)] at h1 ⊢
          obtain ⟨⟨c, lg⟩, e, h2, h3⟩ := h1.of_ok rfl
          dsimp only at h2 h3
          subst h3
          rw [unwind_ok e]
          simp only [Out.andThen_ok]
          refine ih h2 (i + 1) (fun j hj => ?_) lg
          simp only [SMap.upd]; rw [if_neg (by omega)]; exact hm j (by omega)
        · simp only [hi, if_false] at h1 ⊢
          cases hv : dp v
          · rw [hv] at h1
            obtain ⟨⟨c, lg⟩, e, h2, h3⟩ := h1.of_panic rfl
            dsimp only at h2 h3
            subst h3
            rw [unwind_drop e]
            simp only [MSpec.panicDropping, List.any_cons, hv, Bool.false_or, MSpec.owned, ownedOpt]
            by_cases hr : ((It.owned r).filterMap id).any dp = true
            · simp only [hr, if_true]; simp [Ref, Sat]
            · simp only [hr]; exact ⟨_, rfl, h2, by simp⟩
          · rw [hv] at h1
            rw [unwind_abort (h1.of_abort rfl)]
            simp [Ref, Sat, MSpec.panicDropping, hv]

theorem fromIter_ref (dp : A → Bool) (it : It (Option A)) (log : List A) :
    RefV (Rep N) Eq (fromIter N dp it log) (MSpec.fromIter N dp it log) := by
  have h := local_ref (N := N) (dp := dp) (log := log) (R := (Eq : Unit → Unit → Prop)) (s := ())
    (atFst_ref (R := (Eq : Unit → Unit → Prop)) (s := ()) (t := ()) rfl
      (fillLoop_ref (N := N) dp it (Rep.empty Mem.uninit) 0 (fun _ _ => rfl) log))
  have := RefV.forget h
  unfold fromIter MSpec.fromIter
  refine cast (congrArg _ ?_) this
  cases MSpec.fill N dp 0 it (SMap.empty, log) <;> try rfl
  simp only [Out.mapState_panic, localOut]
  split <;> rfl

/-! ### Comparison -/

theorem optEq_eq (eq : A → A → Bool) (a b : Option A) : optEq eq a b = MSpec.sameOpt eq a b := by
  cases a <;> cases b <;> rfl

theorem eachTest_pure {t : Nat → M σ Bool} {f : Nat → Bool} {s : σ} (h : ∀ i, t i s = .ok (f i) s) (l : List Nat) :
    eachTest t l s = .ok (l.all f) s := by
  induction l with
  | nil => rfl
  | cons i r ih =>
    simp only [eachTest, M.bind_run, h, Out.andThen_ok, M.ite_run, ih, List.all_cons]
    cases f i <;> simp

theorem eqSparse_eq {c c' : Sparse A} {m m' : SMap A} (h : Rep N c m) (h' : Rep N c' m') (eq : A → A → Bool) :
    eqSparse N eq (c, c') = .ok ((List.range N).all (fun i => MSpec.sameOpt eq (m i) (m' i))) (c, c') := by
  by_cases hb : ((List.range N).all (fun i => c.map i == c'.map i)) = true
  · have hb' : bmEq N c.map c'.map = true := hb
    simp only [eqSparse, M.bind_run, M.onFst_run, M.onSnd_run, getMap, Out.mapState_ok, Out.andThen_ok, M.ite_run, hb', if_true]
    rw [allBits_eq, keys_eq h]
    rw [eachTest_pure (f := fun i => MSpec.sameOpt eq (m i) (m' i))]
    · congr 1
      rw [Bool.eq_iff_iff]
      simp only [List.all_eq_true, mem_keys, List.mem_range] at hb ⊢
      constructor
      · intro hh i hi
        cases hm : m i with
        | some a =>
          have := hh i ⟨hi, by simp [hm]⟩
          rwa [hm] at this
        | none =>
          have hbi := hb i hi
          rw [h.map i hi, h'.map i hi, hm] at hbi
          cases hm' : m' i with
          | none => rfl
          | some a => rw [hm'] at hbi; simp at hbi
      · intro hh i hi; exact hh i hi.1
    · intro i
      simp [get_eq h, get_eq h', optEq_eq]
  · have hb' : ¬ bmEq N c.map c'.map = true := hb
    simp only [eqSparse, M.bind_run, M.onFst_run, M.onSnd_run, getMap, Out.mapState_ok, Out.andThen_ok, M.ite_run, hb',
      M.pure_run]
    rw [if_neg (by simp)]
    congr 1
    symm
    rw [Bool.eq_false_iff]
    intro hh
    apply hb
    simp only [List.all_eq_true, List.mem_range] at hh ⊢
    intro i hi
    have := hh i hi
    rw [h.map i hi, h'.map i hi]
    cases hm : m i <;> cases hm' : m' i <;> simp_all [MSpec.sameOpt]

theorem eqMap_eq {c : Sparse A} {m : SMap A} (h : Rep N c m) (eq : A → A → Bool) (other : List (Nat × A)) :
    eqMap N eq other c
      = .ok (decide ((m.keys N).length = other.length) && (m.keys N).all (fun i => MSpec.sameOpt eq (m i) (other.lookup i))) c := by
  simp only [eqMap, M.bind_run, len_eq h, getMap, Out.andThen_ok, M.ite_run]
  by_cases hl : (m.keys N).length = other.length
  · rw [if_pos hl, allBits_eq, keys_eq h]
    rw [eachTest_pure (f := fun i => MSpec.sameOpt eq (m i) (other.lookup i))]
    · simp [hl]
    · intro i
      simp [get_eq h, optEq_eq]
  · simp [hl]

/-! ### clone -/

theorem cloneEach_ref (dp : A → Bool) (cl : A → Option A) {c : Sparse A} {m : SMap A} (h : Rep N c m) (ks : List Nat)
    (hk : ∀ i ∈ ks, (m i).isSome = true) (hn : ks.Nodup) {o : Sparse A} {mo : SMap A} (ho : Rep N o mo)
    (hf : ∀ i ∈ ks, mo i = none) (log : List A) :
    Ref (fun x y => Rep N x.1.1 y.1.1 ∧ Rep N x.1.2 y.1.2 ∧ x.2 = y.2) (each (cloneBody N dp cl) ks ((o, c), log))
      (let b := Spec.bornOf cl (ks.filterMap m)
       let mo' := SMap.overwrite ks b mo
       if b.length = ks.length then .ok () ((mo', m), log) else .panic ((mo', m), log)) := by
  induction ks generalizing o mo log with
  | nil => cases hb : Spec.bornOf cl ([] : List A) <;> simp [each, Spec.bornOf] at hb ⊢; exact ⟨_, rfl, ho, h, rfl⟩
  | cons i ks ih =>
    obtain ⟨a, ha⟩ := Option.isSome_iff_exists.1 (hk i (by simp))
    have hi := h.lt ha
    rw [List.filterMap_cons_some ha]
    have hx : index N i c = .ok a c := by simp [index, get_eq h, ha, unwrap]
    simp only [each, M.bind_run, cloneBody, M.onFst_run, M.onSnd_run, hx, Out.mapState_ok, Out.andThen_ok]
    cases hc : cl a with
    | none =>
      have : Spec.bornOf cl (a :: ks.filterMap m) = [] := by simp [Spec.bornOf, hc]
      simp only [this, insertClone, M.panic_run, Out.andThen_panic, SMap.overwrite]
      rw [if_neg (by simp)]
      exact ⟨_, rfl, ho, h, rfl⟩
    | some b =>
      have hbn : Spec.bornOf cl (a :: ks.filterMap m) = b :: Spec.bornOf cl (ks.filterMap m) := by simp [Spec.bornOf, hc]
      have h1 := insertOwned_ref ho dp i b log
      simp only [hi, if_true, hf i (by simp)] at h1
      obtain ⟨⟨o', lg⟩, e, h2, h3⟩ := h1.of_ok rfl
      dsimp only at h2 h3
      subst h3
      simp only [insertClone, M.atFst, e, Out.mapState_ok, Out.andThen_ok]
      rw [List.nodup_cons] at hn
      have := ih (fun j hj => hk j (by simp [hj])) hn.2 h2 (fun j hj => by
        simp only [SMap.upd]
        rw [if_neg (by rintro rfl; exact hn.1 hj)]
        exact hf j (by simp [hj])) lg
      simp only [hbn, SMap.overwrite, List.length_cons, Nat.add_right_cancel_iff]
      exact this

theorem overwrite_not_mem (ks : List Nat) (vs : List A) (m : SMap A) (i : Nat) (h : i ∉ ks) : SMap.overwrite ks vs m i = m i := by
  induction ks generalizing vs m with
  | nil => cases vs <;> rfl
  | cons k ks ih =>
    cases vs with
    | nil => rfl
    | cons v vs =>
      simp only [List.mem_cons, not_or] at h
      rw [SMap.overwrite, ih _ _ h.2]
      simp [SMap.upd, h.1]

theorem overwrite_filterMap (ks : List Nat) (vs : List A) (m : SMap A) (hn : ks.Nodup) (h : vs.length ≤ ks.length)
    (hf : ∀ i ∈ ks, m i = none) : ks.filterMap (SMap.overwrite ks vs m) = vs := by
  induction ks generalizing vs m with
  | nil => cases vs <;> simp_all
  | cons k ks ih =>
    cases vs with
    | nil =>
      rw [SMap.overwrite]
      · rw [List.filterMap_eq_nil_iff]; exact hf
      · intro _ _ _ _ _ h; cases h
    | cons v vs =>
      rw [List.nodup_cons] at hn
      rw [SMap.overwrite, List.filterMap_cons_some (b := v) (by rw [overwrite_not_mem _ _ _ _ hn.1]; simp [SMap.upd])]
      rw [ih vs _ hn.2 (by simpa using h)]
      intro i hi
      have : i ≠ k := by rintro rfl; exact hn.1 hi
      simp [SMap.upd, this, hf i (by simp [hi])]

/-- The elements after the first `vs.length` of the keys of `m` have been given values. -/
theorem overwrite_vals (m : SMap A) (vs : List A) (hv : vs.length ≤ (m.keys N).length) :
    (SMap.overwrite (m.keys N) vs SMap.empty).vals N = vs := by
  have key := overwrite_filterMap (m.keys N) vs SMap.empty (keys_nodup m) hv (fun _ _ => rfl)
  generalize hw : SMap.overwrite (m.keys N) vs SMap.empty = w at key
  have hout : ∀ i, i ∉ m.keys N → w i = none := by
    intro i hi; rw [← hw, overwrite_not_mem _ _ _ _ hi]; rfl
  unfold SMap.vals
  conv => rhs; rw [← key]
  unfold SMap.keys
  rw [List.filterMap_filter]
  apply filterMap_congr'
  intro i hi
  split
  · rfl
  · rename_i hs
    apply hout
    simp only [mem_keys, not_and]
    intro _; exact hs

theorem bornOf_le (cl : A → Option A) (l : List A) : (Spec.bornOf cl l).length ≤ l.length := by
  induction l with
  | nil => simp [Spec.bornOf]
  | cons a r ih => unfold Spec.bornOf; cases cl a <;> simp [ih]

theorem overwrite_clone (cl : A → Option A) (m : SMap A) (ks : List Nat) (hn : ks.Nodup) (hk : ∀ i ∈ ks, (m i).isSome = true)
    (hb : (Spec.bornOf cl (ks.filterMap m)).length = ks.length) (mo : SMap A) (i : Nat) :
    SMap.overwrite ks (Spec.bornOf cl (ks.filterMap m)) mo i = if i ∈ ks then (m i).bind cl else mo i := by
  induction ks generalizing mo with
  | nil => simp [SMap.overwrite]
  | cons k ks ih =>
    obtain ⟨a, ha⟩ := Option.isSome_iff_exists.1 (hk k (by simp))
    rw [List.nodup_cons] at hn
    rw [List.filterMap_cons_some ha] at hb ⊢
    cases hc : cl a with
    | none => simp [Spec.bornOf, hc] at hb
    | some b =>
      simp only [Spec.bornOf, hc, List.length_cons, Nat.add_right_cancel_iff, SMap.overwrite] at hb ⊢
      rw [ih hn.2 (fun i hi => hk i (by simp [hi])) hb]
      by_cases hi : i = k
      · subst hi; simp [hn.1, SMap.upd, ha, hc]
      · simp [hi, SMap.upd]

theorem clone_ref (dp : A → Bool) (cl : A → Option A) {c : Sparse A} {m : SMap A} (h : Rep N c m) (log : List A) :
    RefV (Rep N) (RelLog (Rep N)) (clone N dp cl (c, log)) (MSpec.clone N dp cl (m, log)) := by
  have hk : ∀ i ∈ m.keys N, (m i).isSome = true := fun i hi => (mem_keys.1 hi).2
  have h1 := cloneEach_ref dp cl h (m.keys N) hk (keys_nodup m) (Rep.empty Mem.uninit) (fun _ _ => rfl) log
  have h2 := local_ref (dp := dp) h1
  unfold clone MSpec.clone
  simp only [M.bind_run, M.onFst_run, getMap, Out.mapState_ok, Out.andThen_ok]
  rw [forBits_eq, keys_eq h]
  refine cast (congrArg _ ?_) h2
  dsimp only
  rw [keys_filterMap, ← vals_length]
  by_cases hb : (Spec.bornOf cl (m.vals N)).length = (m.vals N).length
  · simp only [hb, if_true, localOut]
    congr 1
    funext i
    have := overwrite_clone cl m (m.keys N) (keys_nodup m) hk (by rw [keys_filterMap, hb, vals_length]) SMap.empty i
    rw [keys_filterMap] at this
    rw [this]
    split
    · rfl
    · rename_i hi
      have : m i = none := by
        by_cases hN : i < N
        · cases hm : m i with
          | none => rfl
          | some a => exact absurd (mem_keys.2 ⟨hN, by simp [hm]⟩) hi
        · exact h.out i (by omega)
      rw [this]; rfl
  · simp only [hb, if_false, localOut, MSpec.panicDropping]
    rw [overwrite_vals m _ (by rw [← vals_length]; exact bornOf_le cl _)]

/-! ### refpool -/

theorem cloneUninit_each (cl : A → Option A) {c : Sparse A} {m : SMap A} (h : Rep N c m) (ks : List Nat)
    (hk : ∀ i ∈ ks, (m i).isSome = true) (t : Sparse A) :
    each (fun i => do writeClone N i (cl (← M.onSnd (index N i)))) ks (t, c)
      = (let b := Spec.bornOf cl (ks.filterMap m)
         let t' : Sparse A := ⟨t.map, fun i => (SMap.overwrite ks b t.mem) i⟩
         if b.length = ks.length then .ok () (t', c) else .panic (t', c)) := by
  induction ks generalizing t with
  | nil => simp [each, Spec.bornOf, SMap.overwrite]
  | cons i ks ih =>
    obtain ⟨a, ha⟩ := Option.isSome_iff_exists.1 (hk i (by simp))
    have hi := h.lt ha
    rw [List.filterMap_cons_some ha]
    have hx : index N i c = .ok a c := by simp [index, get_eq h, ha, unwrap]
    simp only [each, M.bind_run, M.onSnd_run, hx, Out.mapState_ok, Out.andThen_ok]
    cases hc : cl a with
    | none => simp [writeClone, Spec.bornOf, hc, SMap.overwrite]
    | some b =>
      simp only [writeClone, Spec.bornOf, hc, SMap.overwrite, M.onFst_run, M.bind_run, getMem, memWrite, hi, if_true, M.pure_run,
        setMem, Out.andThen_ok, Out.mapState_ok, List.length_cons, Nat.add_right_cancel_iff]
      exact ih (fun j hj => hk j (by simp [hj])) _

theorem cloneUninit_eq (cl : A → Option A) {c : Sparse A} {m : SMap A} (h : Rep N c m) (t : Sparse A) :
    ∃ t', (cloneUninit N cl (t, c) = if (Spec.bornOf cl (m.vals N)).length = (m.vals N).length then .ok () (t', c) else .panic (t', c)) ∧
      ((Spec.bornOf cl (m.vals N)).length = (m.vals N).length → Rep N t' (fun i => (m i).bind cl)) := by
  have hk : ∀ i ∈ m.keys N, (m i).isSome = true := fun i hi => (mem_keys.1 hi).2
  refine ⟨⟨c.map, fun i => (SMap.overwrite (m.keys N) (Spec.bornOf cl (m.vals N)) t.mem) i⟩, ?_, ?_⟩
  · simp only [cloneUninit, M.bind_run, M.onSnd_run, getMap, Out.mapState_ok, Out.andThen_ok]
    rw [forBits_eq, keys_eq h]
    change each _ _ ((⟨c.map, t.mem⟩ : Sparse A), c) = _
    rw [cloneUninit_each cl h _ hk, keys_filterMap, vals_length]
  · intro hb
    have ho := overwrite_clone cl m (m.keys N) (keys_nodup m) hk (by rw [keys_filterMap, hb, vals_length]) t.mem
    rw [keys_filterMap] at ho
    have hs : ∀ i, i < N → ((m i).bind cl).isSome = (m i).isSome := by
      have : ∀ a ∈ m.vals N, (cl a).isSome = true := by
        generalize m.vals N = l at hb
        induction l with
        | nil => simp
        | cons a r ih =>
          unfold Spec.bornOf at hb
          cases hc : cl a with
          | none => simp [hc] at hb
          | some b =>
            simp only [hc, List.length_cons, Nat.add_right_cancel_iff] at hb
            intro x hx
            simp only [List.mem_cons] at hx
            rcases hx with rfl | hx
            · simp [hc]
            · exact ih hb x hx
      intro i hi
      cases hm : m i with
      | none => rfl
      | some a =>
        simp only [Option.bind_some, Option.isSome_some]
        apply this a
        simp only [SMap.vals, List.mem_filterMap, List.mem_range]
        exact ⟨i, hi, hm⟩
    refine ⟨fun i hi => ?_, fun i a hi e => ?_, fun i hi => ?_⟩
    · rw [hs i hi]; exact h.map i hi
    · dsimp only
      have hk : i ∈ m.keys N := mem_keys.2 ⟨hi, by rw [← hs i hi, e]; rfl⟩
      rw [ho, if_pos hk]; exact e
    · simp [h.out i hi]

theorem defaultUninit_rep (t : Sparse A) : Rep N (defaultUninit t) SMap.empty := Rep.empty t.mem
end Sparse
end Verif
