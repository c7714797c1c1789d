import Verif.Props.AliasRingActs
import Verif.Sparse.Lemmas2
/-
C102: the methods of `RingBuffer` and `SparseChunk` obey the aliasing rules.
-/
namespace Verif.Alias
open Verif
variable {A : Type} {N : Nat} {E : Env}

/-! ### SparseChunk: the calls do what the value model does -/

namespace SparseM
open Sparse
variable {c d c' d' : Sparse A} {m : SMap A} {cs : List Call} {m' : Nat → Mem A}

theorem acts_set0 {a b : Mem A} {i : Nat} (v : A) (h : ActsAll2 cs (mems2 (a.put i v) b) m') : ActsAll2 (.valuesMut 0 i :: cs) (mems2 a b) m' :=
  .cons (mems2_write0 ▸ .valuesMut v) h
theorem acts_set1 {a b : Mem A} {i : Nat} (v : A) (h : ActsAll2 cs (mems2 a (b.put i v)) m') : ActsAll2 (.valuesMut 1 i :: cs) (mems2 a b) m' :=
  .cons (mems2_write1 ▸ .valuesMut v) h

theorem init (h : Rep N c m) {i : Nat} (hi : i < N) (hm : c.map i = true) : (c.mem i).isSome := by
  rw [h.map i hi] at hm
  obtain ⟨a, e⟩ := Option.isSome_iff_exists.1 hm
  rw [h.mem i a hi e]; rfl

/-- What `insert` leaves. -/
theorem insert_mem (h : Rep N c m) {i : Nat} (hi : i < N) (v : A) :
    ∃ r, Sparse.insert N i v c = .ok r ⟨fun j => if j = i then true else c.map j, c.mem.put i v⟩ := by
  have hn : ¬ N ≤ i := by omega
  unfold Sparse.insert
  cases hm : c.map i with
  | false => exact ⟨none, by simp [hn, mapSet_eq hi, hm, forceWrite_eq hi]⟩
  | true =>
    obtain ⟨a, ha⟩ := Option.isSome_iff_exists.1 (init h hi hm)
    exact ⟨some a, by simp [hn, mapSet_eq hi, hm, forceWrite_eq hi, replaceAt, forceRead, getMem, memRead, hi, ha]⟩

theorem remove_mem (h : Rep N c m) {i : Nat} (hi : i < N) :
    ∃ r, Sparse.remove N i c = .ok r ⟨fun j => if j = i then false else c.map j, c.mem⟩ := by
  have hn : ¬ N ≤ i := by omega
  unfold Sparse.remove
  cases hm : c.map i with
  | false => exact ⟨none, by simp [hn, mapSet_eq hi, hm]⟩
  | true =>
    obtain ⟨a, ha⟩ := Option.isSome_iff_exists.1 (init h hi hm)
    exact ⟨some a, by simp [hn, mapSet_eq hi, hm, forceRead, getMem, memRead, hi, ha]⟩

theorem acts_insert (i : Nat) (h : Rep N c m) (hr : SparseMethod.Runs N (.insert i) c d c' d') :
    ActsAll2 (SparseMethod.calls N c.map (.insert i)) (mems2 c.mem d.mem) (mems2 c'.mem d'.mem) := by
  obtain ⟨v, r, e, rfl⟩ := hr
  simp only [SparseMethod.calls]
  by_cases hi : i < N
  · obtain ⟨r', e'⟩ := insert_mem h hi v
    rw [e'] at e
    injection e with e1 e2
    subst e2
    rw [if_neg (by omega)]
    exact .cons .field (acts_set0 v .nil)
  · simp [Sparse.insert, show N ≤ i by omega] at e

theorem acts_remove (i : Nat) (h : Rep N c m) (hr : SparseMethod.Runs N (.remove i) c d c' d') :
    ActsAll2 (SparseMethod.calls N c.map (.remove i)) (mems2 c.mem d.mem) (mems2 c'.mem d'.mem) := by
  obtain ⟨r, e, rfl⟩ := hr
  simp only [SparseMethod.calls]
  by_cases hi : i < N
  · obtain ⟨r', e'⟩ := remove_mem h hi
    rw [e'] at e
    injection e with e1 e2
    subst e2
    rw [if_neg (by omega)]
    refine .cons .field ?_
    split
    · rename_i hm
      exact .cons (.values (init h hi hm)) .nil
    · exact .nil
  · simp [Sparse.remove, show N ≤ i by omega] at e

theorem acts_pop (h : Rep N c m) (hr : SparseMethod.Runs N .pop c d c' d') :
    ActsAll2 (SparseMethod.calls N c.map .pop) (mems2 c.mem d.mem) (mems2 c'.mem d'.mem) := by
  obtain ⟨r, e, rfl⟩ := hr
  simp only [SparseMethod.calls]
  have hf : bmFirst N c.map = (keys N c.map).head? := by unfold bmFirst keys; rw [List.head?_filter]
  simp only [Sparse.pop, Sparse.firstIndex, getMap, M.bind_run, Out.andThen_ok, M.pure_run, hf] at e
  cases hk : keys N c.map with
  | nil =>
    rw [hk] at e
    simp only [List.head?_nil, removeIf, M.pure_run, Out.ok.injEq] at e
    obtain ⟨-, rfl⟩ := e
    exact .cons .len .nil
  | cons i ks =>
    rw [hk] at e
    simp only [List.head?_cons, removeIf] at e
    have hi : i ∈ keys N c.map := by rw [hk]; exact List.mem_cons_self
    unfold keys at hi
    rw [List.mem_filter, List.mem_range] at hi
    obtain ⟨r', e'⟩ := remove_mem h hi.1
    rw [e'] at e
    injection e with e1 e2
    subst e2
    exact .cons .len (.cons .field (.cons (.values (init h hi.1 hi.2)) .nil))

theorem acts_get (i : Nat) (h : Rep N c m) (hr : SparseMethod.Runs N (.get i) c d c' d') :
    ActsAll2 (SparseMethod.calls N c.map (.get i)) (mems2 c.mem d.mem) (mems2 c'.mem d'.mem) := by
  obtain ⟨r, e, rfl⟩ := hr
  rw [get_eq h] at e
  injection e with e1 e2
  subst e2
  simp only [SparseMethod.calls]
  split
  · exact .nil
  · refine .cons .field ?_
    split
    · rename_i hi hm
      exact .cons (.values (init h (by omega) hm)) .nil
    · exact .nil

theorem acts_getMut (i : Nat) (h : Rep N c m) (hr : SparseMethod.Runs N (.getMut i) c d c' d') :
    ActsAll2 (SparseMethod.calls N c.map (.getMut i)) (mems2 c.mem d.mem) (mems2 c'.mem d'.mem) := by
  obtain ⟨v, r, e, rfl⟩ := hr
  simp only [SparseMethod.calls]
  simp only [setIndex, M.bind_run, get_eq h, Out.andThen_ok] at e
  cases hm : m i with
  | none => rw [hm] at e; simp [unwrap] at e
  | some a =>
    rw [hm] at e
    have hi := h.lt hm
    have hb : c.map i = true := by rw [h.map i hi, hm]; rfl
    simp [unwrap, replaceGet, Nat.not_le.2 hi, getMap, bmGet, hi, hb, replaceUnchecked, getUnchecked, getMem, memRead, h.mem i a hi hm, memWrite, setMem] at e
    obtain ⟨-, rfl⟩ := e
    rw [if_neg (by omega), if_pos hb]
    exact .cons .field (acts_set0 v .nil)

theorem drop_same (h : Rep N c m) {dp : A → Bool} (ks : List Nat) (hk : ∀ i ∈ ks, i < N ∧ c.map i = true) {log log' : List A}
    (e : each (dropAt N dp) ks (c, log) = .ok () (c', log')) : c' = c := by
  rw [each_drop h dp ks (fun i hi => by rw [← h.map i (hk i hi).1]; exact (hk i hi).2)] at e
  unfold seqDrop at e
  dsimp only at e
  split at e <;> simp at e
  exact e.1.symm

theorem mem_keys' {map : Bitmap} {i : Nat} (hi : i ∈ keys N map) : i < N ∧ map i = true := by
  unfold keys at hi
  rwa [List.mem_filter, List.mem_range] at hi

theorem acts_drop (h : Rep N c m) (hr : SparseMethod.Runs N .drop c d c' d') :
    ActsAll2 (SparseMethod.calls N c.map .drop) (mems2 c.mem d.mem) (mems2 c'.mem d'.mem) := by
  obtain ⟨dp, log, log', e, rfl⟩ := hr
  simp only [Sparse.drop, M.bind_run, M.onFst_run, getMap, Out.mapState_ok, Out.andThen_ok, forBits_eq] at e
  have hc := drop_same h _ (fun i hi => mem_keys' (N := N) hi) e
  subst hc
  refine .cons .field ?_
  have : ∀ ks : List Nat, (∀ i ∈ ks, i < N ∧ c'.map i = true) → ActsAll2 (ks.map (Call.valuesMut 0)) (mems2 c'.mem d'.mem) (mems2 c'.mem d'.mem) := by
    intro ks
    induction ks with
    | nil => intro _; exact .nil
    | cons i ks ih =>
      intro hk
      have := hk i List.mem_cons_self
      exact .cons (.valuesDrop (init h this.1 this.2)) (ih fun j hj => hk j (List.mem_cons_of_mem _ hj))
  exact this _ fun i hi => mem_keys' hi

theorem clone_acts {dp : A → Bool} {cl : A → Option A} (h : Rep N c m) (ks : List Nat) (hk : ∀ i ∈ ks, i < N ∧ c.map i = true) {o : Sparse A} {mo : SMap A} (ho : Rep N o mo)
    {log log' : List A} (e : each (cloneBody N dp cl) ks ((o, c), log) = .ok () ((d', c'), log')) :
    ActsAll2 (ks.flatMap fun i => [.values 0 i, .field 1 true, .valuesMut 1 i]) (mems2 c.mem o.mem) (mems2 c'.mem d'.mem) := by
  induction ks generalizing o mo log with
  | nil =>
    simp only [each, M.pure_run, Out.ok.injEq, Prod.mk.injEq] at e
    obtain ⟨-, ⟨rfl, rfl⟩, -⟩ := e
    exact .nil
  | cons i ks ih =>
    have hki := hk i List.mem_cons_self
    obtain ⟨a, ha⟩ : ∃ a, m i = some a := by
      apply Option.isSome_iff_exists.1; rw [← h.map i hki.1]; exact hki.2
    have hx : index N i c = .ok a c := by simp [index, get_eq h, ha, unwrap]
    simp only [each, M.bind_run, cloneBody, M.onFst_run, M.onSnd_run, hx, Out.mapState_ok, Out.andThen_ok] at e
    cases hc : cl a with
    | none => rw [hc] at e; simp [insertClone] at e
    | some b =>
      rw [hc] at e
      obtain ⟨r, e1⟩ := insert_mem ho hki.1 b
      have ho' : Rep N ⟨fun j => if j = i then true else o.map j, o.mem.put i b⟩ (mo.upd i (some b)) := ho.insert hki.1 b
      have e2 : ∃ lg, each (cloneBody N dp cl) ks ((⟨fun j => if j = i then true else o.map j, o.mem.put i b⟩, c), lg) = .ok () ((d', c'), log') := by
        simp only [insertClone, M.atFst, insertOwned, M.bind_run, M.onUnwind, M.onFst_run, e1, Out.mapState_ok, Out.andThen_ok] at e
        cases r with
        | none => exact ⟨_, e⟩
        | some x =>
          unfold dropOpt dropOne at e
          dsimp only at e
          split at e
          · simp [Out.mapState, Out.andThen] at e
          · exact ⟨_, e⟩
      obtain ⟨lg, e2⟩ := e2
      have := ih (fun j hj => hk j (List.mem_cons_of_mem _ hj)) ho' e2
      exact .cons (.values (init h hki.1 hki.2)) (.cons .field (acts_set1 b this))

theorem acts_clone (h : Rep N c m) (hr : SparseMethod.Runs N .clone c d c' d') :
    ActsAll2 (SparseMethod.calls N c.map .clone) (mems2 c.mem d.mem) (mems2 c'.mem d'.mem) := by
  obtain ⟨dp, cl, log, log', rfl, e⟩ := hr
  simp only [Sparse.clone, M.bind_run, M.onFst_run, getMap, Out.mapState_ok, Out.andThen_ok] at e
  obtain ⟨r, t, h1, h2⟩ := RingM.bind_ok e
  have := RingM.withLocal_ok h1
  simp only [M.pure_run, Out.ok.injEq] at h2
  obtain ⟨rfl, rfl⟩ := h2
  rw [forBits_eq] at this
  exact .cons .field (.cons .field (clone_acts h _ (fun i hi => mem_keys' (N := N) hi) (Rep.empty Mem.uninit) this))

end SparseM

theorem SparseMethod.fine (m : SparseMethod) (map : Bitmap) : ∀ c ∈ m.calls N map, c.Fine N := by
  have hk : ∀ i ∈ keys N map, i < N := fun i hi => (SparseM.mem_keys' hi).1
  cases m with
  | pop =>
    simp only [SparseMethod.calls]
    cases e : keys N map with
    | nil => simp [Call.Fine, Call.InRange, Call.boxes, Call.Stale]
    | cons i ks =>
      have := hk i (by rw [e]; exact List.mem_cons_self)
      simp [Call.Fine, Call.InRange, Call.boxes, Call.Stale, this]
  | drop =>
    simp only [SparseMethod.calls, List.forall_mem_cons, all_map]
    refine ⟨by simp [Call.Fine, Call.InRange, Call.boxes, Call.Stale], fun i hi => ?_⟩
    have := hk i hi
    simp [Call.Fine, Call.InRange, Call.boxes, Call.Stale, this]
  | clone =>
    simp only [SparseMethod.calls, List.forall_mem_cons, all_flatMap]
    refine ⟨by simp [Call.Fine, Call.InRange, Call.boxes, Call.Stale], by simp [Call.Fine, Call.InRange, Call.boxes, Call.Stale], fun i hi => ?_⟩
    have := hk i hi
    simp [Call.Fine, Call.InRange, Call.boxes, Call.Stale, this]
  | _ =>
    simp only [SparseMethod.calls]
    (repeat' split) <;> simp [Call.Fine, Call.InRange, Call.boxes, Call.Stale] <;> omega

/-! ### C102 -/

/-- The calls of a method of `RingBuffer` have the effect on the storage that its value model has, for every method and every buffer: they write
the slots it writes, and they read and drop only initialised slots. -/
theorem C102_ring_calls {c d c' d' : Ring A} {l k : List A} (hW : 2 * N < E.W) (h : Ring.View E N c l) (h' : Ring.View E N d k)
    (m : RingMethod) (hr : m.Runs E N c d c' d') : ActsAll2 (m.calls N c.origin c.length d.origin d.length) (mems2 c.mem d.mem) (mems2 c'.mem d'.mem) := by
  have h := h.rep hW
  have h' := h'.rep hW
  cases m with
  | pushFront => exact RingM.acts_pushFront h hW hr
  | pushBack => exact RingM.acts_pushBack h hW hr
  | popFront => exact RingM.acts_popFront h hW hr
  | popBack => exact RingM.acts_popBack h hW hr
  | insert i => exact RingM.acts_insert i h hW hr
  | remove i => exact RingM.acts_remove i h hW hr
  | insertFrom i k => exact RingM.acts_insertFrom i k h hW hr
  | splitOff i => exact RingM.acts_splitOff i h hW hr
  | fromFront k => exact RingM.acts_fromFront k h hW hr
  | fromBack k => exact RingM.acts_fromBack k h hW hr
  | append => exact RingM.acts_append h h' hW hr
  | drainFromFront k => exact RingM.acts_drainFromFront k h h' hW hr
  | drainFromBack k => exact RingM.acts_drainFromBack k h h' hW hr
  | dropLeft i => exact RingM.acts_dropLeft i h hW hr
  | dropRight i => exact RingM.acts_dropRight i h hW hr
  | clear => exact RingM.acts_clear h hW hr
  | index i => exact RingM.acts_index i h hW hr
  | indexMut i => exact RingM.acts_indexMut i h hW hr
  | clone => exact RingM.acts_clone h hW hr
  | write k => exact RingM.acts_write k h hW hr

/-- C102, Stacked Borrows: every method of `RingBuffer`, on every buffer, is accepted, and the borrows through which it was called stay usable. -/
theorem C102_ring_stacked_borrows {k : Nat} {s : SB} (hs : Reach SB.rules (SB.start k) s) {c d : Ring A} {l l' : List A} (hW : 2 * N < E.W)
    (h : Ring.View E N c l) (h' : Ring.View E N d l') (b : Nat → Nat) (hb : ∀ x, x < 2 → SB.rules.Usable s (b x) (whole x N)) (m : RingMethod) :
    CallsExactly SB.rules (SB.start k) N b (m.calls N c.origin c.length d.origin d.length) True s := by
  obtain ⟨h1, h2, h3, -⟩ := h.rep hW
  have hf := m.fine (n' := d.length) h1 (h2 ▸ h3) (h'.rep hW).org
  have := C99_pointers_stacked_borrows_partial hs b _ (fun c hc => (hf c hc).1) fun c hc x hx => hb x ((hf c hc).2.1 x hx)
  rwa [show (∀ c' ∈ m.calls N c.origin c.length d.origin d.length, ¬c'.Stale) = True from eq_true fun c hc => (hf c hc).2.2] at this

/-- C102, Tree Borrows. -/
theorem C102_ring_tree_borrows {k : Nat} {s : TB} (hs : Reach TB.rules (TB.start k) s) {c d : Ring A} {l l' : List A} (hW : 2 * N < E.W)
    (h : Ring.View E N c l) (h' : Ring.View E N d l') (b : Nat → Nat) (hb : ∀ x, x < 2 → TB.rules.Usable s (b x) (whole x N)) (m : RingMethod) :
    CallsExactly TB.rules (TB.start k) N b (m.calls N c.origin c.length d.origin d.length) True s := by
  obtain ⟨h1, h2, h3, -⟩ := h.rep hW
  have hf := m.fine (n' := d.length) h1 (h2 ▸ h3) (h'.rep hW).org
  exact C99_pointers_tree_borrows hs b _ (fun c hc => (hf c hc).1) fun c hc x hx => hb x ((hf c hc).2.1 x hx)

/-- The calls of a method of `SparseChunk` have the effect on the storage that its value model has. -/
theorem C102_sparse_calls {c d c' d' : Sparse A} {f : SMap A} (h : Sparse.View N c f) (m : SparseMethod) (hr : m.Runs N c d c' d') :
    ActsAll2 (m.calls N c.map) (mems2 c.mem d.mem) (mems2 c'.mem d'.mem) := by
  have h := h.rep
  cases m with
  | insert i => exact SparseM.acts_insert i h hr
  | remove i => exact SparseM.acts_remove i h hr
  | pop => exact SparseM.acts_pop h hr
  | get i => exact SparseM.acts_get i h hr
  | getMut i => exact SparseM.acts_getMut i h hr
  | drop => exact SparseM.acts_drop h hr
  | clone => exact SparseM.acts_clone h hr

/-- C102, Stacked Borrows: every method of `SparseChunk`, on every chunk. -/
theorem C102_sparse_stacked_borrows {k : Nat} {s : SB} (hs : Reach SB.rules (SB.start k) s) (c : Sparse A) (b : Nat → Nat)
    (hb : ∀ x, x < 2 → SB.rules.Usable s (b x) (whole x N)) (m : SparseMethod) :
    CallsExactly SB.rules (SB.start k) N b (m.calls N c.map) True s := by
  have hf := m.fine (N := N) c.map
  have := C99_pointers_stacked_borrows_partial hs b _ (fun c hc => (hf c hc).1) fun c hc x hx => hb x ((hf c hc).2.1 x hx)
  rwa [show (∀ c' ∈ m.calls N c.map, ¬c'.Stale) = True from eq_true fun c hc => (hf c hc).2.2] at this

/-- C102, Tree Borrows. -/
theorem C102_sparse_tree_borrows {k : Nat} {s : TB} (hs : Reach TB.rules (TB.start k) s) (c : Sparse A) (b : Nat → Nat)
    (hb : ∀ x, x < 2 → TB.rules.Usable s (b x) (whole x N)) (m : SparseMethod) :
    CallsExactly TB.rules (TB.start k) N b (m.calls N c.map) True s := by
  have hf := m.fine (N := N) c.map
  exact C99_pointers_tree_borrows hs b _ (fun c hc => (hf c hc).1) fun c hc x hx => hb x ((hf c hc).2.1 x hx)

/-- The hypotheses hold of a buffer that wraps (items in slots 2 and 0 of 3) and of itself as the source of `append`. -/
example : CallsExactly SB.rules (SB.start 2) 3 id (RingMethod.calls 3 Ring.seam.origin Ring.seam.length Ring.seam.origin Ring.seam.length (.insert 1)) True (SB.start 2) :=
  C102_ring_stacked_borrows (E := Chunk.dbg64) (l := [10, 20]) (l' := [10, 20]) .init (by decide) ⟨rfl, by decide, by decide⟩ ⟨rfl, by decide, by decide⟩ id (fun _ hx => SB.start_usable hx) _
/-- … and the calls are many: on that buffer `insert(1, _)` moves an item across the seam. -/
example : RingMethod.calls 3 2 2 0 0 (.insert 1) = [.len 0, .len 0, .len 0, .field 0 true, .field 0 true, .len 0, .readAt 0 2, .writeAt 0 1, .len 0, .writeAt 0 2] := rfl
example : (RingMethod.insert 1).Runs Chunk.dbg64 3 Ring.seam Ring.seam ⟨1, 3, (Ring.seam.mem.put 1 10).put 2 5⟩ Ring.seam := ⟨5, rfl, rfl⟩
example : CallsExactly TB.rules (TB.start 2) 4 id (SparseMethod.calls 4 Sparse.sample.map .clone) True (TB.start 2) :=
  C102_sparse_tree_borrows .init Sparse.sample id (fun _ hx => TB.start_usable hx) .clone
example : SparseMethod.Runs 4 .pop Sparse.sample Sparse.new { Sparse.sample with map := fun j => if j = 1 then false else Sparse.sample.map j } Sparse.new := ⟨_, rfl, rfl⟩

end Verif.Alias
