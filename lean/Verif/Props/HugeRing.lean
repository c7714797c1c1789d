import Verif.Props.Huge
/-
C82: ring buffers of a zero-sized type, with any capacity up to `usize::MAX`.
-/
namespace Verif.Ring
open Chunk (dbg64 rel64)
variable {σ : Type} {E : Env} {N n : Nat} {c : Ring Unit}

/-- A ring buffer of zero-sized values that holds `n` of them. All slots have the same address and nothing is stored, so reading any slot is allowed at all times
and gives the only value: all of the memory counts as written. -/
structure Holds (N : Nat) (c : Ring Unit) (n : Nat) : Prop where
  origin : c.origin < N
  length : c.length = n
  room : n ≤ N
  mem : ∀ i, c.mem i = some ()

/-- `RingBuffer::new` of a zero-sized type (src/ring_buffer/mod.rs:225-231): the memory needs no writing. -/
def newZst : Ring Unit := ⟨0, 0, fun _ => some ()⟩

/-- The sum `origin + k`, which the code computes, does not panic. -/
def Sums (E : Env) (c : Ring Unit) (k : Nat) : Prop := E.debug = false ∨ c.origin + k < E.W
instance : Decidable (Sums E c k) := inferInstanceAs (Decidable (_ ∨ _))

/-! ### Lemmas -/

theorem addLoop_zst (hN : 0 < N) (f r : Nat) (s : σ) (hf : r < f) : addLoop E N f r s = .ok (r % N) s := by
  induction f generalizing r with
  | zero => omega
  | succ f ih =>
    unfold addLoop
    by_cases hr : r ≥ N
    · simp only [M.bind_run, usub, if_pos hr, M.pure_run, Out.andThen_ok]
      rw [ih (r - N) (by omega)]
      congr 1
      rw [Nat.mod_eq_sub_mod hr]
    · rw [if_neg hr, Nat.mod_eq_of_lt (by omega)]; rfl

theorem rawAdd_sums (hN : 0 < N) (k : Nat) (s : σ) (h : Sums E c k) : ∃ p, p < N ∧ rawAdd E N c.origin k s = .ok p s := by
  have key : ∀ r, (do rawFrom E N (← addLoop E N (r + 1) r) : M σ Nat) s = .ok (r % N) s := by
    intro r
    have hlt := Nat.mod_lt r hN
    simp [addLoop_zst hN (r + 1) r s (by omega), rawFrom, M.debugAssert, M.assert, hlt]
  unfold rawAdd uadd
  by_cases hs : c.origin + k < E.W
  · exact ⟨_, Nat.mod_lt _ hN, by simpa [hs] using key (c.origin + k)⟩
  · rcases h with h | h
    · exact ⟨_, Nat.mod_lt _ hN, by simpa [hs, h] using key ((c.origin + k) % E.W)⟩
    · exact absurd h hs

theorem rawAdd_panics (k : Nat) (s : σ) (h : ¬ Sums E c k) : rawAdd E N c.origin k s = .panic s := by
  simp only [Sums, not_or] at h
  simp [rawAdd, uadd, h.2, h.1]

theorem rawInc_lt (hN : N < E.W) {i : Nat} (hi : i < N) (s : σ) : ∃ p, p < N ∧ rawInc E N i s = .ok p s := by
  have h1 : 1 ≤ N := by omega
  unfold rawInc usub uadd
  simp only [M.bind_run, if_pos h1, M.pure_run, Out.andThen_ok]
  by_cases h : i = N - 1
  · exact ⟨0, by omega, by simp [h]⟩
  · exact ⟨i + 1, by omega, by simp [h, show i + 1 < E.W by omega]⟩

theorem rawDec_lt {i : Nat} (hi : i < N) (s : σ) : ∃ p, p < N ∧ rawDec E N i s = .ok p s := by
  have h1 : 1 ≤ N := by omega
  unfold rawDec usub
  by_cases h : i = 0
  · exact ⟨N - 1, by omega, by simp [h, h1]⟩
  · exact ⟨i - 1, by omega, by simp [h, show 1 ≤ i by omega]⟩

theorem Holds.read (h : Holds N c n) {p : Nat} (hp : p < N) : forceRead E N p c = .ok () c := by
  simp [forceRead, M.debugAssert, M.assert, hp, getMem, memRead, h.mem]

theorem Holds.write (h : Holds N c n) {p : Nat} (hp : p < N) : ∃ c', forceWrite E N p () c = .ok () c' ∧ c'.origin = c.origin ∧ c'.length = c.length ∧ ∀ i, c'.mem i = some () := by
  refine ⟨{ c with mem := c.mem.put p () }, ?_, rfl, rfl, fun i => ?_⟩
  · simp [forceWrite, M.debugAssert, M.assert, hp, getMem, setMem, memWrite]
  · simp only [Mem.put]; split <;> simp [h.mem]

theorem newZst_holds (hN : 0 < N) : Holds N newZst 0 := ⟨hN, rfl, Nat.zero_le _, fun _ => rfl⟩

theorem Sums.mono {i k : Nat} (h : Sums E c k) (hi : i ≤ k) : Sums E c i := h.imp_right fun h => by omega

theorem pushFront_zst (hN : N < E.W) (h : Holds N c n) (hn : n < N) : ∃ c', pushFront E N () c = .ok () c' ∧ Holds N c' (n + 1) := by
  obtain ⟨p, hp, e⟩ := rawDec_lt (E := E) h.origin c
  have h2 : Holds N (⟨p, n + 1, c.mem⟩ : Ring Unit) (n + 1) := ⟨hp, rfl, by omega, h.mem⟩
  obtain ⟨c', e', o, l, m⟩ := h2.write (E := E) hp
  refine ⟨c', ?_, by rw [o]; exact hp, l, by omega, m⟩
  have hl := h.length
  simp only [pushFront, isFull, getLen, M.bind_run, Out.andThen_ok, M.pure_run, hl, show ¬ n = N by omega, decide_false, Bool.false_eq_true, if_false, getOrigin, e,
    setOrigin, uadd, show n + 1 < E.W by omega, if_true, setLen]
  exact e'

theorem popFront_zst (hN : N < E.W) (h : Holds N c (n + 1)) : ∃ c', popFront E N c = .ok (some ()) c' ∧ Holds N c' n := by
  have hl := h.length
  have hr := h.room
  obtain ⟨p, hp, e⟩ := rawInc_lt (E := E) hN h.origin ({ c with length := n } : Ring Unit)
  have h2 : Holds N (⟨p, n, c.mem⟩ : Ring Unit) n := ⟨hp, rfl, by omega, h.mem⟩
  refine ⟨_, ?_, h2⟩
  simp [popFront, isEmpty, getLen, hl, usub, setLen, getOrigin, e, setOrigin, h2.read (E := E) h.origin]

theorem pushBack_zst (hN : N < E.W) (h : Holds N c n) (hn : n < N) :
    if Sums E c n then ∃ c', pushBack E N () c = .ok () c' ∧ Holds N c' (n + 1) else pushBack E N () c = .panic c := by
  have hl := h.length
  split
  · rename_i hs
    obtain ⟨p, hp, e⟩ := rawAdd_sums (E := E) (N := N) (by omega) n c hs
    obtain ⟨c', e', o, l, m⟩ := h.write (E := E) hp
    refine ⟨{ c' with length := n + 1 }, ?_, by rw [o]; exact h.origin, rfl, by omega, m⟩
    have hl' : c'.length = n := by omega
    simp [pushBack, isFull, getLen, hl, show ¬ n = N by omega, raw, getOrigin, e, e', hl', uadd, show n + 1 < E.W by omega, setLen]
  · rename_i hs
    simp [pushBack, isFull, getLen, hl, show ¬ n = N by omega, raw, getOrigin, rawAdd_panics (N := N) n c hs]

theorem popBack_zst (h : Holds N c (n + 1)) :
    Holds N { c with length := n } n ∧ popBack E N c = if Sums E c n then .ok (some ()) { c with length := n } else .panic { c with length := n } := by
  have hl := h.length
  have hr := h.room
  have h2 : Holds N { c with length := n } n := ⟨h.origin, rfl, by omega, h.mem⟩
  refine ⟨h2, ?_⟩
  split
  · rename_i hs
    obtain ⟨p, hp, e⟩ := rawAdd_sums (E := E) (N := N) (c := { c with length := n }) (by omega) n ({ c with length := n } : Ring Unit) hs
    simp only at e
    simp [popBack, isEmpty, getLen, hl, usub, setLen, raw, getOrigin, e, h2.read (E := E) hp]
  · rename_i hs
    have e := rawAdd_panics (E := E) (N := N) (c := { c with length := n }) n ({ c with length := n } : Ring Unit) hs
    simp only at e
    simp [popBack, isEmpty, getLen, hl, usub, setLen, raw, getOrigin, e]

theorem getUnchecked_zst (h : Holds N c n) {i : Nat} (hi : i < n) :
    getUnchecked E N i c = if Sums E c i then .ok () c else .panic c := by
  have hr := h.room
  split
  · rename_i hs
    obtain ⟨p, hp, e⟩ := rawAdd_sums (E := E) (N := N) (by omega) i c hs
    simp [getUnchecked, raw, getOrigin, e, h.read (E := E) hp]
  · rename_i hs
    simp [getUnchecked, raw, getOrigin, rawAdd_panics (N := N) i c hs]

theorem range_zst (h : Holds N c n) (hN : 0 < N) :
    if Sums E c n then ∃ p, range E N c = .ok ⟨n, c.origin, p⟩ c else range E N c = .panic c := by
  have hl := h.length
  split
  · rename_i hs
    obtain ⟨p, hp, e⟩ := rawAdd_sums (E := E) (N := N) hN n c hs
    exact ⟨p, by simp [range, getLen, getOrigin, hl, e]⟩
  · rename_i hs
    simp [range, getLen, getOrigin, hl, rawAdd_panics (N := N) n c hs]

theorem idxNext_zst (hN : N < E.W) {k left right : Nat} (hl : left < N) (s : σ) :
    ∃ left', left' < N ∧ idxNext E N ⟨k + 1, left, right⟩ s = .ok (some (left, ⟨k, left', right⟩)) s := by
  obtain ⟨p, hp, e⟩ := rawInc_lt (E := E) hN hl s
  exact ⟨p, hp, by simp [idxNext, usub, e]⟩

theorem dropLoop_zst (hN : N < E.W) (h : Holds N c n) (dp : Unit → Bool) (k left right f : Nat) (hl : left < N) (hf : k < f) (log : List Unit) :
    forLoop E N (forceDrop E N dp) f ⟨k, left, right⟩ (c, log) =
      if dp () = true ∧ 0 < k then .panic (c, log ++ [()]) else .ok () (c, log ++ List.replicate k ()) := by
  induction k generalizing left f log with
  | zero =>
    obtain ⟨f, rfl⟩ : ∃ g, f = g + 1 := ⟨f - 1, by omega⟩
    simp [forLoop, idxNext]
  | succ k ih =>
    obtain ⟨f, rfl⟩ : ∃ g, f = g + 1 := ⟨f - 1, by omega⟩
    obtain ⟨p, hp, e⟩ := idxNext_zst (E := E) hN (k := k) (right := right) hl (c, log)
    have hd : forceDrop E N dp left (c, log) = if dp () = true then .panic (c, log ++ [()]) else .ok () (c, log ++ [()]) := by
      simp [forceDrop, h.read (E := E) hl, dropOne]
    simp only [forLoop, M.bind_run, e, Out.andThen_ok, hd]
    by_cases hdp : dp () = true
    · simp [hdp]
    · simp only [hdp, if_false, Out.andThen_ok, Bool.false_eq_true, false_and]
      rw [ih p f hp (by omega)]
      simp [hdp, List.replicate_succ]

theorem skip_zst (hN : N < E.W) (i k left right : Nat) (hi : i ≤ k) (hl : left < N) (s : σ) :
    ∃ left', left' < N ∧ skipIdx E N i ⟨k, left, right⟩ s = .ok ⟨k - i, left', right⟩ s := by
  induction i generalizing k left with
  | zero => exact ⟨left, hl, rfl⟩
  | succ i ih =>
    obtain ⟨k, rfl⟩ : ∃ g, k = g + 1 := ⟨k - 1, by omega⟩
    obtain ⟨p, hp, e⟩ := idxNext_zst (E := E) hN (k := k) (right := right) hl s
    obtain ⟨q, hq, e'⟩ := ih k p (by omega) hp
    exact ⟨q, hq, by simp [skipIdx, e, e']⟩

theorem collect_zst (hN : N < E.W) (h : Holds N c n) (k left right f : Nat) (hl : left < N) (hf : k < f) :
    collectIter E N f ⟨k, left, right⟩ c = .ok (List.replicate k ()) c := by
  induction k generalizing left f with
  | zero =>
    obtain ⟨f, rfl⟩ : ∃ g, f = g + 1 := ⟨f - 1, by omega⟩
    simp [collectIter, iterNext]
  | succ k ih =>
    obtain ⟨f, rfl⟩ : ∃ g, f = g + 1 := ⟨f - 1, by omega⟩
    obtain ⟨p, hp, e⟩ := rawInc_lt (E := E) hN hl c
    simp [collectIter, iterNext, usub, e, h.read (E := E) hl, ih p f hp (by omega), List.replicate_succ]

/-- It shows as many as the list has. -/
def ZstRel (N : Nat) (c : Ring Unit) (l : List Unit) : Prop := Holds N c l.length

theorem units (l : List Unit) : l = List.replicate l.length () := List.eq_replicate_iff.2 ⟨rfl, fun _ _ => rfl⟩

theorem droppingSeq_units (dp : Unit → Bool) (k : Nat) (l l' log : List Unit) :
    Spec.droppingSeq dp (List.replicate k ()) l l' log =
      if dp () = true ∧ 0 < k then .panic (l, log ++ [()]) else .ok () (l', log ++ List.replicate k ()) := by
  unfold Spec.droppingSeq
  cases k with
  | zero => simp
  | succ k =>
    by_cases h : dp () = true
    · simp [h, List.replicate_succ, List.findIdx_cons]
    · simp [h]

/-- The calls covered: all those on both ends, and looking, counting and discarding. -/
def Simple : Un Unit → Prop
  | .len | .isEmpty | .isFull | .items | .get _ | .index _ | .pushFront _ | .pushBack _ | .popFront | .popBack | .dropLeft _ | .dropRight _ | .clear | .next | .nextBack
  | .sizeHint => True
  | _ => False

variable {dp : Unit → Bool} {cl : Unit → Option Unit} {l log : List Unit}

theorem dropping_zst (hN : N < E.W) (h : Holds N c n) (k left right : Nat) (hl : left < N) (l : List Unit) (hlen : l.length = n) (l' : List Unit) (log : List Unit)
    {fin : M (Ring Unit × List Unit) Unit} (hfin : ∀ log, ∃ c', fin (c, log) = .ok () (c', log) ∧ Holds N c' l'.length) :
    Ref (RelLog (ZstRel N)) ((do forIdx E N ⟨k, left, right⟩ (forceDrop E N dp); fin : M _ _) (c, log)) (Spec.droppingSeq dp (List.replicate k ()) l l' log) := by
  simp only [forIdx, M.bind_run, dropLoop_zst hN h dp k left right (k + 1) hl (by omega) log, droppingSeq_units]
  split
  · exact ⟨_, rfl, by rw [ZstRel, hlen]; exact h, rfl⟩
  · obtain ⟨c', e, h'⟩ := hfin (log ++ List.replicate k ())
    simp only [Out.andThen_ok, e]
    exact ⟨_, rfl, h', rfl⟩

theorem popBack_ref' (hE : E.debug = false) (h : ZstRel N c l) : Ref (ZstRel N) (popBack E N c) (Spec.popBack? l) := by
  cases hl : l.length with
  | zero =>
    have : l = [] := List.eq_nil_of_length_eq_zero hl
    subst this
    simp only [popBack, isEmpty, getLen, M.bind_run, Out.andThen_ok, M.pure_run, h.length, List.length_nil, decide_true, if_true]
    exact ⟨_, rfl, h⟩
  | succ n =>
    rw [ZstRel, hl] at h
    obtain ⟨h1, h2⟩ := popBack_zst (E := E) h
    rw [h2, if_pos (.inl hE)]
    refine ⟨l.dropLast, ?_, by simpa [ZstRel, hl] using h1⟩
    rw [Spec.popBack?, units l, hl]
    simp [List.getLast?_replicate]
theorem popFront_ref' (hN : N < E.W) (h : ZstRel N c l) : Ref (ZstRel N) (popFront E N c) (Spec.popFront? l) := by
  cases l with
  | nil =>
    simp only [popFront, isEmpty, getLen, M.bind_run, Out.andThen_ok, M.pure_run, h.length, List.length_nil, decide_true, if_true]
    exact ⟨_, rfl, h⟩
  | cons a l =>
    obtain ⟨c', h2, h1⟩ := popFront_zst (E := E) hN h
    rw [h2]
    exact ⟨l, rfl, h1⟩

theorem simple_ref (hN : N < E.W) (hE : E.debug = false) (k : Un Unit) (hk : Simple k) (h : ZstRel N c l) :
    Ref (RelLog (ZstRel N)) ((machine E N dp cl).un k (c, log)) ((specMachine E N dp cl).un k (l, log)) := by
  have hN0 : 0 < N := Nat.lt_of_le_of_lt (Nat.zero_le _) h.origin
  have hlen : c.length = l.length := h.length
  have hs : ∀ k, Sums E c k := fun _ => .inl hE
  obtain ⟨p, hr⟩ : ∃ p, range E N c = .ok ⟨l.length, c.origin, p⟩ c := by
    have := range_zst (E := E) h hN0; rwa [if_pos (hs _)] at this
  cases k <;> first | exact hk.elim | skip
  case len => exact ask_ref ⟨_, by simp only [Spec.len, hlen], h⟩
  case isEmpty => exact ask_ref ⟨_, by cases l <;> simp [Spec.isEmpty, hlen], h⟩
  case isFull => exact ask_ref ⟨_, by simp [Spec.isFull, hlen], h⟩
  case items =>
    refine ask_ref ?_
    obtain ⟨p, -, e⟩ := rawAdd_sums (E := E) (N := N) hN0 l.length c (hs _)
    have : items E N c = .ok (List.replicate l.length ()) c := by
      simp [items, iter, getOrigin, getLen, hlen, e, collect_zst hN h l.length c.origin p (l.length + 1) h.origin (by omega)]
    rw [this]
    exact ⟨l, by rw [← units]; rfl, h⟩
  case get i =>
    refine ask_ref ?_
    by_cases hi : i < l.length
    · simp only [get, getLen, M.bind_run, Out.andThen_ok, hlen, if_neg (Nat.not_le.2 hi), getUnchecked_zst (E := E) h hi, if_pos (hs i), M.pure_run]
      exact ⟨l, by simp [Spec.get, hi], h⟩
    · simp only [get, getLen, M.bind_run, Out.andThen_ok, hlen, if_pos (Nat.not_lt.1 hi), M.pure_run]
      exact ⟨l, by simp [Spec.get, hi], h⟩
  case index i =>
    refine ask_ref ?_
    by_cases hi : i < l.length
    · have e := getUnchecked_zst (E := E) h hi
      rw [if_pos (hs i)] at e
      simp only [getUnchecked] at e
      simp only [index, M.bind_run, getLen, Out.andThen_ok, hlen, M.panicIf, if_neg (Nat.not_le.2 hi), M.pure_run]
      rw [← M.bind_run, e]
      exact ⟨l, by simp [Spec.index, hi], h⟩
    · simp only [index, M.bind_run, getLen, Out.andThen_ok, hlen, M.panicIf, if_pos (Nat.not_lt.1 hi)]
      exact ⟨l, by simp [Spec.index, hi], h⟩
  case pushFront v =>
    refine giving_ref ?_
    by_cases hn : l.length < N
    · obtain ⟨c', e, h'⟩ := pushFront_zst (E := E) hN h hn
      rw [e]
      exact ⟨() :: l, by simp [Spec.pushFront, hn], h'⟩
    · have := h.room
      simp only [pushFront, isFull, getLen, M.bind_run, Out.andThen_ok, M.pure_run, hlen, show l.length = N by omega, decide_true, if_true]
      exact ⟨l, by simp [Spec.pushFront, hn], h⟩
  case pushBack v =>
    refine giving_ref ?_
    by_cases hn : l.length < N
    · have e := pushBack_zst (E := E) hN h hn
      rw [if_pos (hs _)] at e
      obtain ⟨c', e, h'⟩ := e
      rw [e]
      exact ⟨l ++ [()], by simp [Spec.pushBack, hn], by simpa [ZstRel] using h'⟩
    · have := h.room
      simp only [pushBack, isFull, getLen, M.bind_run, Out.andThen_ok, M.pure_run, hlen, show l.length = N by omega, decide_true, if_true]
      exact ⟨l, by simp [Spec.pushBack, hn], h⟩
  case popFront => exact ask_ref (popFront_ref' hN h)
  case popBack => exact ask_ref (popBack_ref' hE h)
  case next => exact ask_ref (popFront_ref' hN h)
  case nextBack => exact ask_ref (popBack_ref' hE h)
  case sizeHint => exact ask_ref ⟨_, by simp [Spec.sizeHint, hlen], h⟩
  case clear =>
    refine logged_ref ?_
    have q := dropping_zst (E := E) (dp := dp) hN h l.length c.origin p h.origin l rfl [] log
      (fin := do M.onFst (do setOrigin (← rawFrom E N 0)); M.onFst (setLen 0))
      (fun log => ⟨{ c with origin := 0, length := 0 }, by simp [rawFrom, M.debugAssert, hE, setOrigin, setLen], hN0, rfl, Nat.zero_le _, h.mem⟩)
    rw [← units] at q
    simpa only [clear, Spec.clearSeq, M.bind_run, M.onFst_run, hr, Out.mapState_ok, Out.andThen_ok] using q
  case dropLeft i =>
    refine logged_ref ?_
    by_cases hi0 : i = 0
    · subst hi0
      simp only [dropLeft, Nat.lt_irrefl, if_false, gt_iff_lt]
      exact ⟨(l, log), by simp [Spec.dropLeftSeq, Spec.droppingSeq], h, rfl⟩
    · by_cases hi : i ≤ l.length
      · have hroom := h.room
        obtain ⟨q', hq', e'⟩ : ∃ q', q' < N ∧ ∀ s : Ring Unit, rawAddAssign E N c.origin i s = .ok q' s := by
          simp only [rawAddAssign, uadd, M.bind_run]
          by_cases hb : c.origin + i < E.W
          · exact ⟨(c.origin + i) % N, Nat.mod_lt _ hN0, fun s => by simp [hb, addLoop_zst hN0]⟩
          · exact ⟨(c.origin + i) % E.W % N, Nat.mod_lt _ hN0, fun s => by simp [hb, hE, addLoop_zst hN0]⟩
        have q := dropping_zst (E := E) (dp := dp) hN h i c.origin p h.origin l rfl (l.drop i) log
          (fin := do M.onFst (do setOrigin (← rawAddAssign E N (← getOrigin) i)); M.onFst (do setLen (← usub E (← getLen) i)))
          (fun log => ⟨{ c with origin := q', length := l.length - i }, by
            simp [getOrigin, e', setOrigin, getLen, hlen, usub, hi, setLen], hq', by simp, by simp; omega, h.mem⟩)
        have ht : l.take i = List.replicate i () := by rw [units (l.take i)]; simp [Nat.min_eq_left hi]
        simp only [dropLeft, gt_iff_lt, Nat.pos_of_ne_zero hi0, if_true, M.bind_run, M.onFst_run, getLen, hlen, Out.mapState_ok, Out.andThen_ok, M.panicIf,
          if_neg (Nat.not_lt.2 hi), M.pure_run, hr, takeIdx, Nat.min_eq_left hi]
        simp only [M.bind_run, M.onFst_run] at q
        rw [Spec.dropLeftSeq, if_pos hi, ht]
        exact q
      · simp only [dropLeft, gt_iff_lt, Nat.pos_of_ne_zero hi0, if_true, M.bind_run, M.onFst_run, getLen, hlen, Out.mapState_ok, Out.andThen_ok, M.panicIf,
          if_pos (Nat.not_le.1 hi)]
        exact ⟨(l, log), by simp [Spec.dropLeftSeq, hi], h, rfl⟩
  case dropRight i =>
    refine logged_ref ?_
    by_cases hi : i ≤ l.length
    · by_cases hil : i = l.length
      · subst hil
        simp only [dropRight, M.bind_run, M.onFst_run, getLen, hlen, Out.mapState_ok, Out.andThen_ok, M.panicIf, gt_iff_lt, Nat.lt_irrefl, if_false, M.pure_run, if_true]
        exact ⟨(l, log), by simp [Spec.dropRightSeq, Spec.droppingSeq], h, rfl⟩
      · have hroom := h.room
        obtain ⟨q', hq', e'⟩ := skip_zst (E := E) hN i l.length c.origin p hi h.origin (c, log)
        have q := dropping_zst (E := E) (dp := dp) hN h (l.length - i) q' p hq' l rfl (l.take i) log (fin := M.onFst (setLen i))
          (fun log => ⟨{ c with length := i }, by simp [setLen], h.origin, by simp [Nat.min_eq_left hi], by simp; omega, h.mem⟩)
        have ht : l.drop i = List.replicate (l.length - i) () := by rw [units (l.drop i)]; simp
        simp only [dropRight, gt_iff_lt, M.bind_run, M.onFst_run, getLen, hlen, Out.mapState_ok, Out.andThen_ok, M.panicIf,
          if_neg (Nat.not_lt.2 hi), M.pure_run, hil, if_false, hr, e']
        rw [Spec.dropRightSeq, if_pos hi, ht]
        exact q
    · simp only [dropRight, gt_iff_lt, M.bind_run, M.onFst_run, getLen, hlen, Out.mapState_ok, Out.andThen_ok, M.panicIf, if_pos (Nat.not_le.1 hi)]
      exact ⟨(l, log), by simp [Spec.dropRightSeq, hi], h, rfl⟩

theorem drop_ref' (hN : N < E.W) (hE : E.debug = false) (h : ZstRel N c l) :
    Ref (RelLog (ZstRel N)) (drop E N dp (c, log)) (Spec.dropSeq dp (l, log)) := by
  have hN0 : 0 < N := Nat.lt_of_le_of_lt (Nat.zero_le _) h.origin
  obtain ⟨p, hr⟩ : ∃ p, range E N c = .ok ⟨l.length, c.origin, p⟩ c := by
    have := range_zst (E := E) h hN0; rwa [if_pos (.inl hE)] at this
  simp only [drop, M.bind_run, M.onFst_run, hr, Out.mapState_ok, Out.andThen_ok, forIdx,
    dropLoop_zst hN h dp l.length c.origin p (l.length + 1) h.origin (by omega) log, Spec.dropSeq]
  rw [show Spec.droppingSeq dp l l l log = Spec.droppingSeq dp (List.replicate l.length ()) l l log by rw [← units], droppingSeq_units]
  split
  · exact ⟨_, rfl, h, rfl⟩
  · exact ⟨_, rfl, h, rfl⟩

/-! ### The theorems -/

/-- A machine that only makes the calls `p` on one container and drops it (used for programs that do nothing else). -/
def onlyCalls {A C K0 K1 K2 K3 : Type} (m : Machine A C K0 K1 K2 K3) (p : K1 → Prop) [DecidablePred p] : Machine A C K0 K1 K2 K3 :=
  { ctor := fun _ => M.panic, un := fun k => if p k then m.un k else pure .unit, fork := fun _ => pure none, bin := fun _ => pure .unit, dtor := m.dtor,
    born := fun _ _ => [] }

theorem only_run {A C K0 K1 K2 K3 : Type} (m : Machine A C K0 K1 K2 K3) (p : K1 → Prop) [DecidablePred p] (ops : List (Op K0 K1 K2 K3))
    (h : ∀ op ∈ ops, (∃ i k, op = .un i k ∧ p k) ∨ ∃ i, op = .drop i) (w : World A C) : (onlyCalls m p).run ops w = m.run ops w := by
  induction ops generalizing w with
  | nil => rfl
  | cons op ops ih =>
    have e : ∀ w, (onlyCalls m p).step op w = m.step op w := by
      intro w
      rcases h op (by simp) with ⟨i, k, rfl, hk⟩ | ⟨i, rfl⟩
      · simp only [Machine.step, onlyCalls, if_pos hk]
      · rfl
    simp only [Machine.run, M.bind_run, e]
    cases m.step op w with
    | ok o w' => simp only [Out.andThen_ok]; rw [ih (fun op h' => h op (by simp [h']))]
    | _ => rfl

open Classical in
/-- C82, the part that holds in release builds: with a zero-sized type and any capacity from 1 to `usize::MAX`, a new buffer answers any sequence of these calls, and
is destroyed, as a bounded list would. -/
theorem C82_release_partial (hN : N < E.W) (hN0 : 0 < N) (hE : E.debug = false) (ops : List (Op (Ctor Unit) (Un Unit) Fork Bin))
    (h : ∀ op ∈ ops, (∃ k, op = .un 0 k ∧ Simple k) ∨ op = .drop 0) :
    Ref (WorldRel (ZstRel N)) ((machine E N dp cl).run ops (World.empty.put 0 (some newZst))) ((specMachine E N dp cl).run ops (World.empty.put 0 (some []))) := by
  have ok : ∀ op ∈ ops, (∃ i k, op = .un i k ∧ Simple k) ∨ ∃ i, op = .drop i := fun op ho =>
    (h op ho).imp (fun ⟨k, e, s⟩ => ⟨0, k, e, s⟩) (fun e => ⟨0, e⟩)
  have hm : MachineRel (ZstRel N) (onlyCalls (machine E N dp cl) Simple) (onlyCalls (specMachine E N dp cl) Simple) :=
    { ctor := fun k log => ⟨log, rfl, rfl⟩
      un := fun k c d log hcd => by
        simp only [onlyCalls]
        split
        · exact simple_ref hN hE k (by assumption) hcd
        · exact ⟨_, rfl, hcd, rfl⟩
      fork := fun k c d log hcd => ⟨none, _, rfl, trivial, hcd, rfl⟩
      bin := fun k c d c' d' log h1 h2 => ⟨_, rfl, h1, h2, rfl⟩
      dtor := fun c d log hcd => drop_ref' hN hE hcd
      born := fun _ _ _ _ => rfl }
  have hw : WorldRel (ZstRel N) (World.empty.put 0 (some newZst) : World Unit (Ring Unit)) (World.empty.put 0 (some [])) := by
    refine ⟨rfl, rfl, rfl, fun i => ?_⟩
    refine MachineRel.put_heap (R := ZstRel N) (fun _ => ?_) ?_ i
    · exact trivial
    · exact newZst_holds hN0
  have := hm.run_ref ops hw
  rwa [only_run _ _ _ ok, only_run _ _ _ ok] at this

/-- C82, exactly how it fails in debug builds: with a zero-sized type and a capacity up to `usize::MAX`, in every state. Whether the calls that count from the front
(`push_back`, `pop_back`, `get`, `drop`) panic depends on whether the position of the front plus what they count overflows `usize`; `push_front` and `pop_front`
never do. A `pop_back` that panics has removed the item already, and a `drop` that panics has destroyed nothing. -/
theorem C82_debug_partial (hN : N < E.W) (hE : E.debug = true) (h : Holds N c n) (log : List Unit) :
    (n < N → (∃ c', pushFront E N () c = .ok () c' ∧ Holds N c' (n + 1)) ∧
      (c.origin + n < E.W → ∃ c', pushBack E N () c = .ok () c' ∧ Holds N c' (n + 1)) ∧ (E.W ≤ c.origin + n → pushBack E N () c = .panic c)) ∧
    (0 < n → (∃ c', popFront E N c = .ok (some ()) c' ∧ Holds N c' (n - 1)) ∧
      ∃ c', Holds N c' (n - 1) ∧ popBack E N c = if c.origin + (n - 1) < E.W then .ok (some ()) c' else .panic c') ∧
    (∀ i, i < n → get E N i c = if c.origin + i < E.W then .ok (some ()) c else .panic c) ∧
    drop E N (fun _ => false) (c, log) = if c.origin + n < E.W then .ok () (c, log ++ List.replicate n ()) else .panic (c, log) := by
  have hN0 : 0 < N := Nat.lt_of_le_of_lt (Nat.zero_le _) h.origin
  have hs : ∀ k, Sums E c k ↔ c.origin + k < E.W := fun k => by simp [Sums, hE]
  refine ⟨fun hn => ⟨pushFront_zst hN h hn, ?_⟩, fun hn => ?_, fun i hi => ?_, ?_⟩
  · have := pushBack_zst (E := E) hN h hn
    simp only [hs] at this
    constructor
    · intro hw; rwa [if_pos hw] at this
    · intro hw; rwa [if_neg (by omega)] at this
  · obtain ⟨m, rfl⟩ : ∃ m, n = m + 1 := ⟨n - 1, by omega⟩
    refine ⟨popFront_zst hN h, _, (popBack_zst (E := E) h).1, ?_⟩
    rw [(popBack_zst (E := E) h).2]
    simp only [hs, Nat.add_sub_cancel]
  · simp only [get, getLen, M.bind_run, Out.andThen_ok, h.length, if_neg (Nat.not_le.2 hi), getUnchecked_zst (E := E) h hi, hs]
    split <;> rfl
  · have := range_zst (E := E) h hN0
    simp only [hs] at this
    split
    · rename_i hw
      rw [if_pos hw] at this
      obtain ⟨p, hr⟩ := this
      simp [drop, hr, forIdx, dropLoop_zst hN h (fun _ => false) n c.origin p (n + 1) h.origin (by omega) log]
    · rename_i hw
      rw [if_neg hw] at this
      simp [drop, this]

/-- It can be reached: push two at the back of a `RingBuffer<(), { usize::MAX }>`, then two at the front. In a debug build `pop_back` then panics and
loses an item. -/
example :
    let prog : List (Op (Ctor Unit) (Un Unit) Fork Bin) := [.ctor .new, .un 0 (.pushBack ()), .un 0 (.pushBack ()), .un 0 (.pushFront ()), .un 0 (.pushFront ()),
      .un 0 .len, .un 0 .popBack, .un 0 .len, .un 0 (.get 2), .un 0 .popBack, .un 0 .len]
    ((machine dbg64 (2 ^ 64 - 1) (fun _ => false) some).run prog World.empty).seen =
      some [.handle 0, .res .unit, .res .unit, .res .unit, .res .unit, .res (.nat 4), .panicked, .res (.nat 3), .res (.optRef (some ())), .res (.opt (some ())), .res (.nat 2)] := by
  decide +kernel
/-- C82 in release builds is not vacuous. -/
example : Holds (2 ^ 64 - 1) newZst 0 ∧ 2 ^ 64 - 1 < rel64.W ∧
    (∀ op ∈ ([.un 0 (.pushBack ()), .un 0 (.pushFront ()), .un 0 .popBack, .un 0 .items, .drop 0] : List (Op (Ctor Unit) (Un Unit) Fork Bin)),
      (∃ k, op = .un 0 k ∧ Simple k) ∨ op = .drop 0) := ⟨newZst_holds (by decide), by decide, by simp [Simple]⟩
end Verif.Ring
