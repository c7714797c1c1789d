import Verif.Mixed
import Verif.Cmp
import Verif.Props.ChunkHistory
import Verif.Props.RingHistory
import Verif.Props.SparseHistory
import Verif.Props.InlineHistory
/-
C94: programs that use all the containers of the crate at once, at any capacities, and move items between them.
-/
namespace Verif
deriving instance DecidableEq for Layout

namespace Mixed
variable {A : Type}

/-- A sequence container of the crate: `Chunk<A, N>`, `RingBuffer<A, N>`, or `InlineArray<A, T>` with the layout `L`. -/
inductive SeqTy (A : Type) where
  | chunk (N : Nat) | ring (N : Nat) | inline (L : Layout A)
deriving DecidableEq
/-- A container of the crate: a sequence or a `SparseChunk<A, N>`. -/
inductive Ty (A : Type) where
  | seq (s : SeqTy A) | sparse (N : Nat)
deriving DecidableEq

/-- Which of them are considered: capacities far from `usize::MAX`, positive for the ring; layouts that exist. -/
def Ty.Ok (E : Env) : Ty A → Prop
  | .seq (.chunk N) => 2 * N < E.W
  | .seq (.ring N) => 0 < N ∧ 2 * N < E.W
  | .seq (.inline L) => L.Valid E
  | .sparse N => N < E.W

/-- A container, by its type. -/
@[reducible] def Store : Ty A → Type
  | .seq (.chunk _) => Chunk A
  | .seq (.ring _) => Ring A
  | .seq (.inline _) => Inline A
  | .sparse _ => Sparse A
/-- What it stands for: a list, or a map from indices. -/
@[reducible] def Contents : Ty A → Type
  | .seq _ => List A
  | .sparse _ => SMap A
@[reducible] def K0 : Ty A → Type
  | .seq (.chunk _) => Chunk.Ctor A
  | .seq (.ring _) => Ring.Ctor A
  | .seq (.inline _) => Inline.Ctor A
  | .sparse _ => Sparse.Ctor A
@[reducible] def K1 : Ty A → Type
  | .seq (.chunk _) => Chunk.Un A
  | .seq (.ring _) => Ring.Un A
  | .seq (.inline _) => Inline.Un A
  | .sparse _ => Sparse.Un A
@[reducible] def K2 : Ty A → Type
  | .seq (.chunk _) => Chunk.Fork
  | .seq (.ring _) => Ring.Fork
  | .seq (.inline _) => Inline.Fork
  | .sparse _ => Sparse.Fork
@[reducible] def K3 : Ty A → Type
  | .seq (.chunk _) => Chunk.Bin
  | .seq (.ring _) => Ring.Bin
  | .seq (.inline _) => Empty
  | .sparse _ => Sparse.Bin A

variable [DecidableEq A] (E : Env) (dp : A → Bool) (cl : A → Option A)

/-- The types of container in a program. -/
abbrev Kind (A : Type) (E : Env) := { t : Ty A // t.Ok E }

/-- The calls of one type (the tables of C01, C24, C46, C59). -/
def calls : ∀ t : Kind A E, Machine A (Store t.1) (K0 t.1) (K1 t.1) (K2 t.1) (K3 t.1)
  | ⟨.seq (.chunk N), _⟩ => Chunk.machine E N dp cl
  | ⟨.seq (.ring N), _⟩ => Ring.machine E N dp cl
  | ⟨.seq (.inline L), _⟩ => Inline.machine E L dp cl
  | ⟨.sparse N, _⟩ => Sparse.machine E N dp cl
/-- The same calls on lists and maps. -/
def specCalls : ∀ t : Kind A E, Machine A (Contents t.1) (K0 t.1) (K1 t.1) (K2 t.1) (K3 t.1)
  | ⟨.seq (.chunk N), _⟩ => Chunk.specMachine E N dp cl
  | ⟨.seq (.ring N), _⟩ => Ring.specMachine E N dp cl
  | ⟨.seq (.inline L), _⟩ => Inline.specMachine dp cl (Inline.Accepted E L) (Inline.cap E L)
  | ⟨.sparse N, _⟩ => Sparse.specMachine N dp cl

/-! ### Calls between types -/

/-- `Drain::next` (src/sized_chunk/iter.rs:56-62, src/ring_buffer/iter.rs:140-142, src/inline_array/iter.rs:46-48). -/
def drainNext : ∀ s : SeqTy A, M (Store (.seq s)) (Option A)
  | .chunk N => Chunk.iterNext E N
  | .ring N => Ring.popFront E N
  | .inline L => Inline.iterNext E L
/-- `push_back`/`push` with an owned value, as `extend` calls it (src/sized_chunk/mod.rs:911, src/ring_buffer/mod.rs:876,
src/inline_array/mod.rs:579). -/
def pushOwned : ∀ s : SeqTy A, A → M (Store (.seq s) × List A) Unit
  | .chunk N => Chunk.pushBackOwned E N dp
  | .ring N => Ring.pushBackOwned E N dp
  | .inline L => Inline.pushOwned E L dp
/-- `len()`. -/
def length : ∀ s : SeqTy A, M (Store (.seq s)) Nat
  | .chunk _ => Chunk.len E
  | .ring _ => Ring.getLen
  | .inline L => Inline.len E L
/-- `CAPACITY`. -/
def capacity : SeqTy A → Nat
  | .chunk N => N
  | .ring N => N
  | .inline L => Inline.cap E L

/-- The loop of `dst.extend(src.drain())` (src/sized_chunk/mod.rs:907-914, src/ring_buffer/mod.rs:874-878, src/inline_array/mod.rs:575-582, all
`for item in it { self.push(item) }`), where every `next()` is a call on the other container; the state is `((dst, src), drop log)`.  The first argument
bounds the number of rounds; running out of it would count as not terminating. -/
def pourLoop (d s : SeqTy A) : Nat → M ((Store (.seq d) × Store (.seq s)) × List A) Unit
  | 0 => M.diverge
  | fuel + 1 => do
    match (← M.onFst (M.onSnd (drainNext E s))) with
    | none => pure ()
    | some a =>
      M.atFst (pushOwned E dp d a)
      pourLoop d s fuel
/-- `dst.extend(src.drain())`, for any two sequence types. `Drain` has no destructor of its own: what is not taken stays in `src`. -/
def pour (d s : SeqTy A) : M ((Store (.seq d) × Store (.seq s)) × List A) Unit := do
  let n ← M.onFst (M.onSnd (length E s))
  pourLoop E dp d s (n + 1)

/-- What `dst.extend(src.drain())` does to lists, `n` being the capacity of `dst`: everything moves over if it fits; otherwise `dst` is filled up, the
first item that does not fit is destroyed, and the others stay in `src`. -/
def pourSpec (n : Nat) : M ((List A × List A) × List A) Unit
  | ((l, k), log) =>
    if l.length + k.length ≤ n then .ok () ((l ++ k, []), log)
    else match k.drop (n - l.length) with
      | [] => .ok () ((l, k), log)
      | a :: r => if dp a then .abort else .panic ((l ++ k.take (n - l.length), r), log ++ [a])

/-- `borrow()` of what implements `Borrow<[A]>`: src/sized_chunk/mod.rs:834-838, src/inline_array/mod.rs (`RingBuffer` does not). -/
def borrow : ∀ s : SeqTy A, Option (M (Store (.seq s)) (List A))
  | .chunk N => some (Chunk.asSlice E N)
  | .ring _ => none
  | .inline L => some (Inline.items E L)
/-- `==` with anything that borrows as a slice: src/sized_chunk/mod.rs:751-759, src/ring_buffer/mod.rs:830-833, src/inline_array/mod.rs:478-486. -/
def eqBorrowed (eq : A → A → Bool) (k : List A) : ∀ s : SeqTy A, M (Store (.seq s)) Bool
  | .chunk N => Chunk.eqSlice E N eq k
  | .ring N => Ring.eqPrim E N eq k
  | .inline L => Inline.eqSlice E L eq k
/-- `left == right` for two containers of different types. -/
def equal (eq : A → A → Bool) (l r : SeqTy A) : M ((Store (.seq l) × Store (.seq r)) × List A) (Res A) :=
  match borrow E r with
  | none => pure .skipped
  | some b => M.onFst (do
      let k ← M.onSnd b
      return .bool (← M.onFst (eqBorrowed E eq k l)))
/-- The same on lists. -/
def equalSpec (eq : A → A → Bool) (r : SeqTy A) : M ((List A × List A) × List A) (Res A)
  | ((l, k), log) => match r with
    | .ring _ => .ok .skipped ((l, k), log)
    | _ => .ok (.bool (decide (l.length = k.length) && (l.zip k).all (fun p => eq p.1 p.2))) ((l, k), log)

/-- Making a container out of one of another type: `Chunk::from(&mut array)`. (`Chunk::from(array)` is this and then dropping the array, see C23.) -/
structure Conv (A : Type) (E : Env) where
  L : Layout A
  hL : L.Valid E
  N : Nat
  hN : 2 * N < E.W
/-- A call that takes two sequences of any types. -/
inductive Pair (A : Type) (E : Env) where
  /-- `left.extend(right.drain())` -/
  | pour (l r : SeqTy A) (hl : (Ty.seq l).Ok E) (hr : (Ty.seq r).Ok E)
  /-- `left == right` -/
  | equal (eq : A → A → Bool) (l r : SeqTy A) (hl : (Ty.seq l).Ok E) (hr : (Ty.seq r).Ok E)

/-- Contents of any type. -/
abbrev AnyContents (A : Type) (E : Env) := Σ t : Kind A E, Contents t.1
variable {E} in
/-- `Chunk::from(&mut array)` on lists. -/
def toChunkSpec (x : Conv A E) : M (List A × List A) (Option (AnyContents A E)) := fun s =>
  if s.1.length ≤ x.N then .ok (some ⟨⟨.seq (.chunk x.N), x.hN⟩, s.1⟩) ([], s.2) else .panic s

/-- A container of any type. -/
abbrev Any (A : Type) (E : Env) := Σ t : Kind A E, Store t.1

/-- All calls. -/
def machine : Machine A (Any A E) (Σ t : Kind A E, K0 t.1) (Σ t : Kind A E, K1 t.1) ((Σ t : Kind A E, K2 t.1) ⊕ Conv A E)
    ((Σ t : Kind A E, K3 t.1) ⊕ Pair A E) :=
  (Machine.mix (calls E dp cl)).plus
    (fun x => onKind (C := fun t : Kind A E => Store t.1) ⟨.seq (.inline x.L), x.hL⟩
      (M.onFst (do return some ⟨⟨.seq (.chunk x.N), x.hN⟩, ← Inline.toChunk E x.L x.N⟩)) none)
    (fun
      | .pour l r hl hr => onKinds (C := fun t : Kind A E => Store t.1) ⟨.seq l, hl⟩ ⟨.seq r, hr⟩ (do pour E dp l r; return .unit) .skipped
      | .equal eq l r hl hr => onKinds (C := fun t : Kind A E => Store t.1) ⟨.seq l, hl⟩ ⟨.seq r, hr⟩ (equal E eq l r) .skipped)
/-- All calls, on lists and maps. -/
def specMachine : Machine A (AnyContents A E) (Σ t : Kind A E, K0 t.1) (Σ t : Kind A E, K1 t.1) ((Σ t : Kind A E, K2 t.1) ⊕ Conv A E)
    ((Σ t : Kind A E, K3 t.1) ⊕ Pair A E) :=
  (Machine.mix (specCalls E dp cl)).plus
    (fun x => onKind (C := fun t : Kind A E => Contents t.1) ⟨.seq (.inline x.L), x.hL⟩ (toChunkSpec x) none)
    (fun
      | .pour l r hl hr => onKinds (C := fun t : Kind A E => Contents t.1) ⟨.seq l, hl⟩ ⟨.seq r, hr⟩ (do pourSpec dp (capacity E l); return .unit) .skipped
      | .equal eq l r hl hr => onKinds (C := fun t : Kind A E => Contents t.1) ⟨.seq l, hl⟩ ⟨.seq r, hr⟩ (equalSpec eq r) .skipped)

/-- The container, looked at through `as_slice`, `iter`, `get` or `deref`, shows these contents. -/
def Shows (E : Env) : ∀ t : Kind A E, Store t.1 → Contents t.1 → Prop
  | ⟨.seq (.chunk N), _⟩ => Chunk.View E N
  | ⟨.seq (.ring N), _⟩ => Ring.View E N
  | ⟨.seq (.inline L), _⟩ => Inline.View E L
  | ⟨.sparse N, _⟩ => Sparse.View N
/-- The items it shows. -/
def peek : ∀ t : Kind A E, Store t.1 → List A
  | ⟨.seq (.chunk N), _⟩ => Chunk.peek E N
  | ⟨.seq (.ring N), _⟩ => Ring.peek E N
  | ⟨.seq (.inline L), _⟩ => Inline.peek E L
  | ⟨.sparse N, _⟩ => Sparse.peek N
def inputs : ∀ t : Kind A E, Inputs A (K0 t.1) (K1 t.1) (K2 t.1) (K3 t.1)
  | ⟨.seq (.chunk _), _⟩ => Chunk.inputs
  | ⟨.seq (.ring _), _⟩ => Ring.inputs
  | ⟨.seq (.inline _), _⟩ => Inline.inputs
  | ⟨.sparse _, _⟩ => Sparse.inputs
def terms : ∀ t : Kind A E, Terms (K1 t.1) (K2 t.1)
  | ⟨.seq (.chunk _), _⟩ => Chunk.terms dp
  | ⟨.seq (.ring _), _⟩ => Ring.terms dp
  | ⟨.seq (.inline _), _⟩ => Inline.terms dp
  | ⟨.sparse _, _⟩ => Sparse.terms

/-! ### Proofs -/
variable {E dp cl}

/-- The relation of the refinement proofs. -/
def Rep : ∀ t : Kind A E, Store t.1 → Contents t.1 → Prop
  | ⟨.seq (.chunk N), _⟩ => Chunk.Rep N
  | ⟨.seq (.ring N), _⟩ => Ring.Rep N
  | ⟨.seq (.inline L), _⟩ => Inline.Rep E L
  | ⟨.sparse N, _⟩ => Sparse.Rep N
def vals : ∀ t : Kind A E, Contents t.1 → List A
  | ⟨.seq _, _⟩ => id
  | ⟨.sparse N, _⟩ => SMap.vals N

theorem calls_rel (t : Kind A E) : MachineRel (Rep t) (calls E dp cl t) (specCalls E dp cl t) :=
  match t with
  | ⟨.seq (.chunk _), h⟩ => Chunk.machineRel h
  | ⟨.seq (.ring _), h⟩ => Ring.machineRel h.1 h.2
  | ⟨.seq (.inline _), h⟩ => Inline.machineRel h
  | ⟨.sparse _, h⟩ => Sparse.machineRel h
theorem calls_balanced (t : Kind A E) : Balanced (vals t) (specCalls E dp cl t) (inputs E t) (terms E dp t) :=
  match t with
  | ⟨.seq (.chunk _), _⟩ => Chunk.specBalanced
  | ⟨.seq (.ring _), _⟩ => Ring.specBalanced
  | ⟨.seq (.inline _), _⟩ => Inline.specBalanced _ _
  | ⟨.sparse _, _⟩ => Sparse.specBalanced
theorem Rep.shows : ∀ {t : Kind A E} {c : Store t.1} {l : Contents t.1}, Rep t c l → Shows E t c l
  | ⟨.seq (.chunk _), _⟩, _, _, h => Chunk.Rep.view E h
  | ⟨.seq (.ring _), hW⟩, _, _, h => Ring.Rep.view hW.2 h
  | ⟨.seq (.inline _), hv⟩, _, _, h => Inline.Rep.view hv h
  | ⟨.sparse _, _⟩, _, _, h => Sparse.Rep.view h
theorem Rep.peek : ∀ {t : Kind A E} {c : Store t.1} {l : Contents t.1}, Rep t c l → peek E t c = vals t l
  | ⟨.seq (.chunk _), _⟩, _, _, h => Chunk.peek_eq h
  | ⟨.seq (.ring _), hW⟩, _, _, h => Ring.peek_eq hW.2 h
  | ⟨.seq (.inline _), hv⟩, _, _, h => Inline.peek_eq hv h
  | ⟨.sparse _, _⟩, _, _, h => Sparse.peek_eq h
theorem length_le : ∀ {s : SeqTy A} {h : (Ty.seq s).Ok E} {c : Store (.seq s)} {l : List A}, Rep ⟨.seq s, h⟩ c l → l.length ≤ capacity E s
  | .chunk N, _, c, l, (h : Chunk.Rep N c l) => by have := h.le; have := h.right_eq; simp only [capacity]; omega
  | .ring N, _, c, l, (h : Ring.Rep N c l) => h.le
  | .inline L, _, c, l, (h : Inline.Rep E L c l) => h.le
theorem length_eq : ∀ {s : SeqTy A} {h : (Ty.seq s).Ok E} {c : Store (.seq s)} {l : List A}, Rep ⟨.seq s, h⟩ c l → length E s c = .ok l.length c
  | .chunk _, _, _, _, h => Chunk.len_eq h
  | .ring _, _, _, _, h => Ring.getLen_eq h
  | .inline _, hv, _, _, h => Inline.len_eq hv h
theorem drainNext_ref : ∀ {s : SeqTy A} {h : (Ty.seq s).Ok E} {c : Store (.seq s)} {l : List A}, Rep ⟨.seq s, h⟩ c l →
    Ref (Rep ⟨.seq s, h⟩) (drainNext E s c) (Spec.popFront? l)
  | .chunk N, hN, _, _, h => Chunk.iterNext_ref (show N < E.W by have : 2 * N < E.W := hN; omega) h
  | .ring _, hW, _, _, h => Ring.popFront_ref hW.2 h
  | .inline _, hv, _, _, h => Inline.iterNext_ref hv h
theorem pushOwned_ref : ∀ {s : SeqTy A} {h : (Ty.seq s).Ok E} {c : Store (.seq s)} {l : List A}, Rep ⟨.seq s, h⟩ c l → ∀ (v : A) (log : List A),
    Ref (RelLog (Rep ⟨.seq s, h⟩)) (pushOwned E dp s v (c, log))
      (if l.length < capacity E s then .ok () (l ++ [v], log) else Spec.panicDropping dp [v] l log)
  | .chunk N, hN, _, _, h, v, log => Chunk.pushBackOwned_ref (show N < E.W by have : 2 * N < E.W := hN; omega) dp v h log
  | .ring _, hW, _, _, h, v, log => Ring.pushBackOwned_ref hW.2 dp v h log
  | .inline _, hv, _, _, h, v, log => Inline.pushOwned_ref hv h dp v log

/-- Both containers and the log. -/
def Rep2 {d s : SeqTy A} (hd : (Ty.seq d).Ok E) (hs : (Ty.seq s).Ok E) (x : (Store (.seq d) × Store (.seq s)) × List A)
    (y : (List A × List A) × List A) : Prop := Rep ⟨.seq d, hd⟩ x.1.1 y.1.1 ∧ Rep ⟨.seq s, hs⟩ x.1.2 y.1.2 ∧ x.2 = y.2

theorem pourSpec_cons {n : Nat} {l k log : List A} {a : A} (hl : l.length < n) :
    pourSpec dp n ((l ++ [a], k), log) = pourSpec dp n ((l, a :: k), log) := by
  have e : n - l.length = (n - (l.length + 1)) + 1 := by omega
  simp only [pourSpec, List.length_append, List.length_cons, List.length_nil, Nat.zero_add, e, List.drop_succ_cons, List.take_succ_cons]
  by_cases h : l.length + 1 + k.length ≤ n
  · rw [if_pos h, if_pos (by omega)]; simp
  · rw [if_neg h, if_neg (by omega)]
    split <;> simp_all
    omega

theorem pourLoop_ref {d s : SeqTy A} {hd : (Ty.seq d).Ok E} {hs : (Ty.seq s).Ok E} (fuel : Nat) : ∀ {c : Store (.seq d)} {c' : Store (.seq s)} {l k : List A}
    (_ : Rep ⟨.seq d, hd⟩ c l) (_ : Rep ⟨.seq s, hs⟩ c' k) (log : List A), k.length < fuel →
    Ref (Rep2 hd hs) (pourLoop E dp d s fuel ((c, c'), log)) (pourSpec dp (capacity E d) ((l, k), log)) := by
  induction fuel with
  | zero => intro _ _ _ _ _ _ _ h; omega
  | succ fuel ih =>
    intro c c' l k h h' log hf
    have hn := drainNext_ref h'
    unfold pourLoop
    cases k with
    | nil =>
      obtain ⟨s', e, h1⟩ := hn.of_ok (a := none) (t := []) rfl
      have hle := length_le h
      simp only [M.bind_run, M.onFst_run, M.onSnd_run, e, Out.mapState_ok, Out.andThen_ok, M.pure_run]
      refine ⟨((l, []), log), ?_, h, h1, rfl⟩
      simp only [pourSpec, List.length_nil, Nat.add_zero, if_pos hle, List.append_nil]
    | cons a k =>
      obtain ⟨s', e, h1⟩ := hn.of_ok (a := some a) (t := k) rfl
      have hp := pushOwned_ref (dp := dp) h a log
      simp only [M.bind_run, M.onFst_run, M.onSnd_run, e, Out.mapState_ok, Out.andThen_ok, M.atFst]
      by_cases hl : l.length < capacity E d
      · rw [if_pos hl] at hp
        obtain ⟨⟨s2, log2⟩, e2, h2, h3⟩ := hp.of_ok rfl
        simp only at h2 h3
        subst h3
        rw [e2]
        simp only [Out.mapState_ok, Out.andThen_ok]
        rw [← pourSpec_cons hl]
        exact ih h2 h1 _ (by simp at hf; omega)
      · rw [if_neg hl] at hp
        have hle := length_le h
        have e0 : capacity E d - l.length = 0 := by omega
        simp only [pourSpec, e0, List.drop_zero, List.take_zero, List.append_nil]
        rw [if_neg (by simp; omega)]
        simp only [Spec.panicDropping, List.any_cons, List.any_nil, Bool.or_false] at hp
        cases hx : dp a with
        | true =>
          rw [hx] at hp
          simp only [if_true] at hp ⊢
          cases hy : pushOwned E dp d a (c, log) <;> rw [hy] at hp <;> simp_all [Ref, Sat, Out.mapState, Out.andThen]
        | false =>
          rw [hx] at hp
          obtain ⟨⟨s2, log2⟩, e2, h2, h3⟩ := hp.of_panic rfl
          simp only at h2 h3
          rw [e2]
          exact ⟨_, rfl, h2, h1, h3⟩

theorem pour_ref {d s : SeqTy A} {hd : (Ty.seq d).Ok E} {hs : (Ty.seq s).Ok E} {c : Store (.seq d)} {c' : Store (.seq s)} {l k : List A}
    (h : Rep ⟨.seq d, hd⟩ c l) (h' : Rep ⟨.seq s, hs⟩ c' k) (log : List A) :
    Ref (Rep2 hd hs) (pour E dp d s ((c, c'), log)) (pourSpec dp (capacity E d) ((l, k), log)) := by
  simp only [pour, M.bind_run, M.onFst_run, M.onSnd_run, length_eq h', Out.mapState_ok, Out.andThen_ok]
  exact pourLoop_ref _ h h' log (by omega)

theorem seqEq_zip (eq : A → A → Bool) (l k : List A) : seqEq eq l k = (decide (l.length = k.length) && (l.zip k).all (fun p => eq p.1 p.2)) := by
  induction l generalizing k with
  | nil => cases k <;> simp [seqEq]
  | cons a r ih =>
    cases k with
    | nil => simp [seqEq]
    | cons b t =>
      simp only [seqEq, ih, List.length_cons, List.zip_cons_cons, List.all_cons, Nat.add_right_cancel_iff]
      cases eq a b <;> cases decide (r.length = t.length) <;> rfl

theorem eqBorrowed_eq (eq : A → A → Bool) (k : List A) : ∀ {s : SeqTy A} {h : (Ty.seq s).Ok E} {c : Store (.seq s)} {l : List A}, Rep ⟨.seq s, h⟩ c l →
    eqBorrowed E eq k s c = .ok (decide (l.length = k.length) && (l.zip k).all (fun p => eq p.1 p.2)) c
  | .chunk _, _, _, _, h => by simp only [eqBorrowed, Chunk.eqSlice, M.bind_run, Chunk.asSlice_eq h, Out.andThen_ok, M.pure_run, seqEq_zip]
  | .ring _, hW, _, l, h => by
    simp only [eqBorrowed, Ring.eqPrim, M.bind_run, Ring.getLen_eq h, Ring.items_eq hW.2 h, Out.andThen_ok, M.pure_run, seqEq_zip]
    cases decide (l.length = k.length) <;> rfl
  | .inline _, hv, _, _, h => by simp only [eqBorrowed, Inline.eqSlice, M.bind_run, Inline.items_eq hv h, Out.andThen_ok, M.pure_run, seqEq_zip]

theorem equal_ref (eq : A → A → Bool) {l r : SeqTy A} {hl : (Ty.seq l).Ok E} {hr : (Ty.seq r).Ok E} {c : Store (.seq l)} {c' : Store (.seq r)} {x y : List A}
    (h : Rep ⟨.seq l, hl⟩ c x) (h' : Rep ⟨.seq r, hr⟩ c' y) (log : List A) :
    Ref (Rep2 hl hr) (equal E eq l r ((c, c'), log)) (equalSpec eq r ((x, y), log)) := by
  cases r with
  | ring N => exact ⟨_, rfl, h, h', rfl⟩
  | chunk N =>
    simp only [equal, borrow, equalSpec, M.bind_run, M.onFst_run, M.onSnd_run, Chunk.asSlice_eq h', Out.mapState_ok, Out.andThen_ok,
      eqBorrowed_eq eq y h, M.pure_run]
    exact ⟨_, rfl, h, h', rfl⟩
  | inline L =>
    simp only [equal, borrow, equalSpec, M.bind_run, M.onFst_run, M.onSnd_run, Inline.items_eq hr h', Out.mapState_ok, Out.andThen_ok,
      eqBorrowed_eq eq y h, M.pure_run]
    exact ⟨_, rfl, h, h', rfl⟩

theorem machineRel : MachineRel (SameKind Rep) (machine E dp cl) (specMachine E dp cl) := by
  refine (MachineRel.mix calls_rel).plus (fun x c d log h => ?_) (fun x c d c' d' log h h' => ?_)
  · refine onKind_refV (S := RelOpt (SameKind Rep)) (skip := none) (skip' := none) trivial (fun c d log h => ?_) h log
    have := Inline.toChunk_ref x.hL x.N h
    simp only [M.onFst_run, M.bind_run]
    by_cases hN : d.length ≤ x.N
    · obtain ⟨b, s, e, h1, h2⟩ := this.of_ok (b := d) (t := []) (by rw [if_pos hN])
      rw [e, show toChunkSpec x (d, log) = _ from if_pos hN]
      have h3 : SameKind (Rep (A := A) (E := E)) ⟨⟨.seq (.chunk x.N), x.hN⟩, b⟩ ⟨⟨.seq (.chunk x.N), x.hN⟩, d⟩ := ⟨_, _, _, h1⟩
      exact ⟨_, _, rfl, h3, h2, rfl⟩
    · obtain ⟨s, e, h2⟩ := this.of_panic (t := d) (by rw [if_neg hN])
      rw [e, show toChunkSpec x (d, log) = _ from if_neg hN]
      exact ⟨_, rfl, h2, rfl⟩
  · cases x with
    | pour l r hl hr =>
      refine onKinds_ref (fun c d c' d' log h1 h2 => ?_) h h' log
      have := pour_ref (dp := dp) (hd := hl) (hs := hr) h1 h2 log
      simp only [M.bind_run]
      cases hx : pour E dp l r ((c, c'), log) <;> rw [hx] at this <;> simp only [Ref, Sat] at this <;> simp only [Out.andThen, Ref, Sat]
      · obtain ⟨t, e, h3⟩ := this
        rw [e]; exact ⟨_, rfl, h3⟩
      · obtain ⟨t, e, h3⟩ := this
        rw [e]; exact ⟨_, rfl, h3⟩
      · rw [this]
    | equal eq l r hl hr => exact onKinds_ref (fun c d c' d' log h1 h2 => equal_ref eq (hl := hl) (hr := hr) h1 h2 log) h h' log

theorem pourSpec_count (n : Nat) (l k log : List A) : Sat (pourSpec dp n ((l, k), log))
    (fun _ s => ∀ a, (l ++ k ++ log).count a = (s.1.1 ++ s.1.2 ++ s.2).count a)
    (fun s => ∀ a, (l ++ k ++ log).count a = (s.1.1 ++ s.1.2 ++ s.2).count a) True := by
  simp only [pourSpec]
  split
  · intro a; simp
  · split
    · intro a; rfl
    · rename_i a r hd
      split
      · trivial
      · intro b
        have : k = k.take (n - l.length) ++ a :: r := by rw [← hd, List.take_append_drop]
        conv => lhs; rw [this]
        simp only [List.count_append, List.count_cons, List.count_nil]
        omega

theorem balanced : Balanced (fun c : AnyContents A E => vals c.1 c.2) (specMachine E dp cl) (Inputs.mix (inputs E)).plus
    ((Terms.mix (terms E dp)).plus (X2 := Conv A E)) := by
  refine (Balanced.mix calls_balanced).plus (fun x c log => ?_) (fun x c c' log => ?_)
  · obtain ⟨j, c⟩ := c
    simp only [onKind]
    split
    · rename_i hj
      subst hj
      refine Sat.mapState ?_
      simp only [toChunkSpec]
      split
      · intro a
        simp only [optItems, vals, id, List.count_append, List.count_nil, Nat.add_zero]
      · exact fun a => rfl
    · exact fun a => by simp [optItems]
  · obtain ⟨i', c⟩ := c
    obtain ⟨j', c'⟩ := c'
    cases x with
    | pour l r hl hr =>
      simp only [onKinds]
      split
      · rename_i hj
        obtain ⟨rfl, rfl⟩ := hj
        refine Sat.mapState ?_
        have := pourSpec_count (dp := dp) (capacity E l) c c' log
        simp only [M.bind_run]
        cases hx : pourSpec dp (capacity E l) ((c, c'), log) <;> rw [hx] at this <;> simp only [Sat] at this <;> simp only [Out.andThen, Sat]
        · intro a; simpa [Res.outs, vals, M.pure_run] using this a
        · intro a; simpa [vals] using this a
      · exact fun a => by simp [Res.outs]
    | equal eq l r hl hr =>
      simp only [onKinds]
      split
      · rename_i hj
        obtain ⟨rfl, rfl⟩ := hj
        refine Sat.mapState ?_
        cases r <;> exact fun a => by simp [Res.outs, vals]
      · exact fun a => by simp [Res.outs]

theorem total (hd : ∀ a, dp a = false) : (specMachine E dp cl).Total := by
  refine (Machine.Total.mix fun t => ?_).plus (fun x s => onKind_total (fun s => ?_) s) (fun x s => ?_)
  · match t with
    | ⟨.seq (.chunk _), _⟩ => exact Chunk.specTotal hd
    | ⟨.seq (.ring _), _⟩ => exact Ring.specTotal hd
    | ⟨.seq (.inline _), _⟩ => exact Inline.specTotal hd _ _
    | ⟨.sparse _, _⟩ => exact Sparse.specTotal hd
  · simp only [toChunkSpec]
    split <;> trivial
  · cases x with
    | pour l r hl hr =>
      refine onKinds_total (fun s => ?_) s
      obtain ⟨⟨l, k⟩, log⟩ := s
      simp only [M.bind_run, pourSpec]
      split
      · trivial
      · split
        · trivial
        · simp only [hd]; trivial
    | equal eq l r hl hr =>
      refine onKinds_total (fun s => ?_) s
      obtain ⟨⟨l, k⟩, log⟩ := s
      cases r <;> trivial

/-! ### C94 -/

/-- A call in a program that uses all types. -/
abbrev Call (A : Type) (E : Env) := Op (Σ t : Kind A E, K0 t.1) (Σ t : Kind A E, K1 t.1) ((Σ t : Kind A E, K2 t.1) ⊕ Conv A E) ((Σ t : Kind A E, K3 t.1) ⊕ Pair A E)

theorem SameKind.mono {c : Any A E} {d : AnyContents A E} (h : SameKind Rep c d) : SameKind (Shows E) c d := by
  obtain ⟨t, c, d, h⟩ := h
  exact SameKind.mk (R := Shows E) t c d h.shows

/-- C94. For every program that uses any number of `Chunk`s, `RingBuffer`s, `SparseChunk`s and `InlineArray`s, at any capacities and layouts, and moves
items between them, running the code and running the same program on lists and maps gives the same observations (returned values, panics, destructor
runs), and afterwards every container shows its list or map. -/
theorem C94_history (ops : List (Call A E)) :
    Ref (WorldRel (SameKind (Shows E))) ((machine E dp cl).run ops World.empty) ((specMachine E dp cl).run ops World.empty) :=
  (machineRel.run_ref ops MachineRel.empty_rel).imp fun _ _ h => Inline.WorldRel.imp (fun _ _ h => SameKind.mono h) h

/-- C94. No such program reaches undefined behaviour or an infinite loop. -/
theorem C94_no_undefined_behaviour (ops : List (Call A E)) :
    (machine E dp cl).run ops World.empty ≠ .ub ∧ (machine E dp cl).run ops World.empty ≠ .diverge := by
  have h := C94_history (dp := dp) (cl := cl) ops
  constructor <;> intro e <;> rw [e] at h <;> exact h

/-- C94. If no destructor panics, such a program always runs to its end (every call returns or panics; the process never aborts). -/
theorem C94_completes (hd : ∀ a, dp a = false) (ops : List (Call A E)) : ∃ os w, (machine E dp cl).run ops World.empty = .ok os w :=
  machineRel.run_total (total hd) ops MachineRel.empty_rel

/-- The elements the client gave away in a program. -/
def given (ops : List (Call A E)) (os : List (Obs A)) : List A := (Inputs.mix (inputs E)).plus.ofRun ops os
/-- Each call, with the result that the client saw, is one for which its type claims exact accounting (C14, C34, C54, C61). -/
def Accounted (dp : A → Bool) (ops : List (Call A E)) (os : List (Obs A)) : Prop :=
  AllSteps ((Terms.mix (terms E dp)).plus (X2 := Conv A E)).Accounted ops os
/-- ... and one that leaks nothing. -/
def Keeps (dp : A → Bool) (ops : List (Call A E)) (os : List (Obs A)) : Prop :=
  AllSteps ((Terms.mix (terms E dp)).plus (X2 := Conv A E)).Keeps ops os
/-- The elements in all live containers. -/
def stored (w : World A (Any A E)) : List A := w.live (fun c => peek E c.1 c.2)

theorem ledger (ops : List (Call A E)) {os : List (Obs A)} {w : World A (Any A E)} (hr : (machine E dp cl).run ops World.empty = .ok os w)
    (hg : Accounted dp ops os) :
    ∃ leak, (Keeps dp ops os → leak = []) ∧ (given ops os ++ w.made).Perm (outsOf os ++ w.log ++ stored w ++ leak) :=
  conservation machineRel balanced (fun c d h => by obtain ⟨t, c, d, h⟩ := h; exact h.peek) ops hr hg

/-- C94, at every point of such a program: what was moved in (or made by cloning) is exactly what was handed back, was destroyed, or is still stored in a
live container, whatever its type. -/
theorem C94_conservation (ops : List (Call A E)) {os : List (Obs A)} {w : World A (Any A E)}
    (hr : (machine E dp cl).run ops World.empty = .ok os w) (hg : Accounted dp ops os) (hh : Keeps dp ops os) :
    (given ops os ++ w.made).Perm (outsOf os ++ w.log ++ stored w) := by
  obtain ⟨leak, hl, hp⟩ := ledger ops hr hg
  rwa [hl hh, List.append_nil] at hp

/-- C94. If the elements moved in and made are pairwise distinct, none of them is ever destroyed, handed back or still stored more than once in total,
even when calls leaked some. -/
theorem C94_never_twice (ops : List (Call A E)) {os : List (Obs A)} {w : World A (Any A E)}
    (hr : (machine E dp cl).run ops World.empty = .ok os w) (hg : Accounted dp ops os) (hd : (given ops os ++ w.made).Nodup) :
    (outsOf os ++ w.log ++ stored w).Nodup := by
  obtain ⟨leak, hl, hp⟩ := ledger ops hr hg
  exact ((hp.nodup_iff).1 hd).sublist (List.sublist_append_left _ _)

/-- C94. Once no container is left: exactly what was moved in or made has been handed back or destroyed, each element as often as it was given. -/
theorem C94_every_element_once (ops : List (Call A E)) {os : List (Obs A)} {w : World A (Any A E)}
    (hr : (machine E dp cl).run ops World.empty = .ok os w) (hg : Accounted dp ops os) (hh : Keeps dp ops os) (hend : ∀ h, w.heap h = none) :
    (given ops os ++ w.made).Perm (outsOf os ++ w.log) := by
  have h := C94_conservation ops hr hg hh
  have : stored w = [] := by
    unfold stored World.live
    generalize w.next = n
    induction n with
    | zero => rfl
    | succ n ih => simp [liveItems, ih, hend]
  rwa [this, List.append_nil] at h

theorem Rep.shows_eq : ∀ {t : Kind A E} {c : Store t.1} {l k : Contents t.1}, Rep t c l → Shows E t c k → Rep t c k
  | ⟨.seq (.chunk _), hN⟩, _, _, _, _, h => Chunk.View.rep hN h
  | ⟨.seq (.ring _), hW⟩, _, _, _, _, h => Ring.View.rep hW.2 h
  | ⟨.seq (.inline L), hv⟩, c, l, k, h, hk => by
    have h1 : Inline.Rep E L c l := h
    have h2 : Inline.View E L c k := hk
    have e := Inline.items_eq hv h1
    rw [Inline.View, e] at h2
    cases h2
    exact h
  | ⟨.sparse _, _⟩, _, _, _, _, h => Sparse.View.rep h

/-- A container that some program has made. -/
def Reachable (E : Env) (dp : A → Bool) (cl : A → Option A) (t : Kind A E) (c : Store t.1) : Prop :=
  ∃ (ops : List (Call A E)) (os : List (Obs A)) (w : World A (Any A E)) (h : Nat),
    (machine E dp cl).run ops World.empty = .ok os w ∧ w.heap h = some ⟨t, c⟩
theorem Reachable.rep {t : Kind A E} {c : Store t.1} (h : Reachable E dp cl t c) {l : Contents t.1} (hl : Shows E t c l) : Rep t c l := by
  obtain ⟨ops, os, w, i, hr, hc⟩ := h
  have h := (machineRel (dp := dp) (cl := cl)).run_ref ops (MachineRel.empty_rel (A := A) (R := SameKind Rep))
  rw [hr] at h
  obtain ⟨v, _, hw⟩ := h
  have h1 := hw.heap i
  rw [hc] at h1
  cases hv : v.heap i with
  | none => rw [hv] at h1; exact h1.elim
  | some d =>
    rw [hv] at h1
    have h2 : SameKind Rep ⟨t, c⟩ d := h1
    cases h2 with
    | mk _ _ d h2 => exact h2.shows_eq hl

/-- C94, the calls between types on their own: `dst.extend(src.drain())`, on containers of any two types, moves everything if it fits; otherwise it
panics, having moved what fits, destroyed the one item that it could not store, and left the rest in the source. -/
theorem C94_pour {d s : SeqTy A} {hd : (Ty.seq d).Ok E} {hs : (Ty.seq s).Ok E} {c : Store (.seq d)} {c' : Store (.seq s)} {l k : List A}
    (hr : Reachable E dp cl ⟨.seq d, hd⟩ c) (hr' : Reachable E dp cl ⟨.seq s, hs⟩ c')
    (h : Shows E ⟨.seq d, hd⟩ c l) (h' : Shows E ⟨.seq s, hs⟩ c' k) (log : List A) :
    (l.length + k.length ≤ capacity E d → ∃ x y, pour E dp d s ((c, c'), log) = .ok () ((x, y), log) ∧
      Shows E ⟨.seq d, hd⟩ x (l ++ k) ∧ Shows E ⟨.seq s, hs⟩ y []) ∧
    (∀ k₁ a k₂, k = k₁ ++ a :: k₂ → l.length + k₁.length = capacity E d → dp a = false → ∃ x y,
      pour E dp d s ((c, c'), log) = .panic ((x, y), log ++ [a]) ∧ Shows E ⟨.seq d, hd⟩ x (l ++ k₁) ∧ Shows E ⟨.seq s, hs⟩ y k₂) := by
  have hp := pour_ref (dp := dp) (hr.rep h) (hr'.rep h') log
  constructor
  · intro hl
    obtain ⟨⟨⟨x, y⟩, log'⟩, e, h1, h2, h3⟩ := hp.of_ok (a := ()) (t := ((l ++ k, []), log)) (by simp only [pourSpec, if_pos hl])
    simp only at h1 h2 h3
    subst h3
    exact ⟨x, y, e, h1.shows, h2.shows⟩
  · rintro k₁ a k₂ rfl hl ha
    obtain ⟨⟨⟨x, y⟩, log'⟩, e, h1, h2, h3⟩ := hp.of_panic (t := ((l ++ k₁, k₂), log ++ [a])) (by
      have e1 : capacity E d - l.length = k₁.length := by omega
      simp only [pourSpec, e1]
      rw [if_neg (by simp; omega), List.drop_left]
      simp [ha])
    simp only at h1 h2 h3
    subst h3
    exact ⟨x, y, e, h1.shows, h2.shows⟩

theorem chunk3_ok : (Ty.seq (.chunk 3) : Ty Nat).Ok Chunk.dbg64 := by show 2 * 3 < Chunk.dbg64.W; decide
theorem chunk5_ok : (Ty.seq (.chunk 5) : Ty Nat).Ok Chunk.dbg64 := by show 2 * 5 < Chunk.dbg64.W; decide
theorem ring2_ok : (Ty.seq (.ring 2) : Ty Nat).Ok Chunk.dbg64 := by show 0 < 2 ∧ 2 * 2 < Chunk.dbg64.W; decide
theorem sparse4_ok : (Ty.sparse 4 : Ty Nat).Ok Chunk.dbg64 := by show 4 < Chunk.dbg64.W; decide
/-- The types in the example: a chunk of 3, one of 5, a ring of 2, a sparse chunk of 4, an inline array of 4. -/
def c3 : Kind Nat Chunk.dbg64 := ⟨.seq (.chunk 3), chunk3_ok⟩
def c5 : Kind Nat Chunk.dbg64 := ⟨.seq (.chunk 5), chunk5_ok⟩
def r2 : Kind Nat Chunk.dbg64 := ⟨.seq (.ring 2), ring2_ok⟩
def s4 : Kind Nat Chunk.dbg64 := ⟨.sparse 4, sparse4_ok⟩
def i4 : Kind Nat Chunk.dbg64 := ⟨.seq (.inline Inline.words), Inline.words_valid⟩

/-- Fill an inline array, make it a chunk (it does not fit in a chunk of 3), pour it over a ring that overflows, compare, look. -/
def demo : List (Call Nat Chunk.dbg64) :=
  [.ctor ⟨i4, .fromIter 0 (It.ofList [1, 2, 3, 4])⟩, .fork 0 (.inr ⟨Inline.words, Inline.words_valid, 3, chunk3_ok⟩),
   .fork 0 (.inr ⟨Inline.words, Inline.words_valid, 5, chunk5_ok⟩), .ctor ⟨r2, .unit 9⟩,
   .bin 2 1 (.inr (.pour (.ring 2) (.chunk 5) ring2_ok chunk5_ok)), .un 2 ⟨r2, .items⟩, .un 1 ⟨c5, .asSlice⟩,
   .bin 0 1 (.inr (.pour (.inline Inline.words) (.chunk 5) Inline.words_valid chunk5_ok)), .ctor ⟨c3, .pair 3 4⟩,
   .bin 0 3 (.inr (.equal (· == ·) (.inline Inline.words) (.chunk 3) Inline.words_valid chunk3_ok)),
   .ctor ⟨s4, .pair 0 7 3 8⟩, .un 4 ⟨s4, .next⟩, .un 3 ⟨s4, .next⟩, .drop 0, .drop 1, .drop 2, .drop 3, .drop 4]

/-- C94 is not vacuous. -/
example : ((machine Chunk.dbg64 (fun _ => false) (fun a => some a)).run demo World.empty).seen =
      some [.handle 0, .panicked, .handle 1, .handle 2, .panicked, .res (.refs [9, 1]), .res (.refs [3, 4]), .res .unit, .handle 3, .res (.bool true),
        .handle 4, .res (.opt (some 7)), .res .skipped, .res .unit, .res .unit, .res .unit, .res .unit, .res .unit] ∧
    ((machine Chunk.dbg64 (fun _ => false) (fun a => some a)).run demo World.empty).final.map (·.log) = some [2, 3, 4, 9, 1, 3, 4, 8] := by
  constructor <;> decide +kernel
example (os : List (Obs Nat)) : Accounted (fun _ => false) demo os := by
  apply AllSteps.of_forall
  intro op h
  simp only [demo, List.mem_cons, List.not_mem_nil, or_false] at h
  rcases h with rfl | rfl | rfl | rfl | rfl | rfl | rfl | rfl | rfl | rfl | rfl | rfl | rfl | rfl | rfl | rfl | rfl | rfl <;>
    intro o <;> trivial

/-- No call leaks if no `drop` panics. -/
example (os : List (Obs Nat)) (h : ∀ o ∈ os.drop 13, o ≠ .panicked) : Keeps (fun _ => false) demo os := by
  have drops : ∀ (n : Nat) (os : List (Obs Nat)), (∀ o ∈ os, o ≠ .panicked) →
      Keeps (E := Chunk.dbg64) (fun _ => false) ((List.range n).map .drop) os := by
    intro n os h
    induction (List.range n) generalizing os with
    | nil => trivial
    | cons a r ih =>
      cases os with
      | nil => trivial
      | cons o os =>
        have h1 : o.panic = false := by
          have := h o (by simp)
          cases o <;> simp_all [Obs.panic]
        refine ⟨?_, ih os fun o ho => h o (by simp [ho])⟩
        show ∀ t, (terms Chunk.dbg64 (fun _ => false) t).dropKeeps o.panic
        rw [h1]
        intro t
        match t with
        | ⟨.seq (.chunk _), _⟩ => trivial
        | ⟨.seq (.ring _), _⟩ => rfl
        | ⟨.seq (.inline _), _⟩ => trivial
        | ⟨.sparse _, _⟩ => rfl
  have split : ∀ (a b : List (Call Nat Chunk.dbg64)) (os : List (Obs Nat)), Keeps (fun _ => false) a os → Keeps (fun _ => false) b (os.drop a.length) →
      Keeps (fun _ => false) (a ++ b) os := by
    intro a
    induction a with
    | nil => exact fun b os _ h => h
    | cons x r ih =>
      intro b os h1 h2
      cases os with
      | nil => trivial
      | cons o os => exact ⟨h1.1, ih b os h1.2 h2⟩
  refine split (demo.take 13) ((List.range 5).map .drop) os ?_ (drops 5 _ h)
  apply AllSteps.of_forall
  intro op h
  simp only [demo, List.take, List.mem_cons, List.not_mem_nil, or_false] at h
  rcases h with rfl | rfl | rfl | rfl | rfl | rfl | rfl | rfl | rfl | rfl | rfl | rfl | rfl <;> intro o <;> trivial
/-- `Reachable` and `Shows` hold of real containers, here a ring of 2 with one item. -/
example : Reachable Chunk.dbg64 (fun _ => false) (fun a => some a) r2 (⟨0, 1, Mem.uninit.put 0 9⟩ : Ring Nat) ∧
    Shows Chunk.dbg64 r2 (⟨0, 1, Mem.uninit.put 0 9⟩ : Ring Nat) [9] :=
  ⟨⟨[.ctor ⟨r2, .unit 9⟩], [.handle 0], _, 0, rfl, rfl⟩, by show Ring.items Chunk.dbg64 2 _ = _ ∧ 0 < 2 ∧ 1 ≤ 2; exact ⟨rfl, by decide, by decide⟩⟩

end Mixed
end Verif
