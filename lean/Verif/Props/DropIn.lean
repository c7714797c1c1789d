import Verif.Props.ChunkBulk
import Verif.Props.RingHistory
/-
C78: a `RingBuffer` can be used in place of a `Chunk`.
-/
namespace Verif

namespace Machine
variable {A C K0 K1 K2 K3 J0 J1 J2 J3 : Type}

/-- The machine offering only the calls named by `J0 … J3`, each standing for a call of `m`. -/
def only (m : Machine A C K0 K1 K2 K3) (f0 : J0 → K0) (f1 : J1 → K1) (f2 : J2 → K2) (f3 : J3 → K3) : Machine A C J0 J1 J2 J3 where
  ctor k := m.ctor (f0 k)
  un k := m.un (f1 k)
  fork k := m.fork (f2 k)
  bin k := m.bin (f3 k)
  dtor := m.dtor
  born k := m.born (f2 k)
end Machine

/-- Translate the calls of an action. -/
def Op.map {K0 K1 K2 K3 J0 J1 J2 J3 : Type} (f0 : J0 → K0) (f1 : J1 → K1) (f2 : J2 → K2) (f3 : J3 → K3) : Op J0 J1 J2 J3 → Op K0 K1 K2 K3
  | .ctor k => .ctor (f0 k)
  | .un h k => .un h (f1 k)
  | .fork h k => .fork h (f2 k)
  | .bin h h' k => .bin h h' (f3 k)
  | .drop h => .drop h

theorem Machine.run_only {A C K0 K1 K2 K3 J0 J1 J2 J3 : Type} (m : Machine A C K0 K1 K2 K3) (f0 : J0 → K0) (f1 : J1 → K1) (f2 : J2 → K2)
    (f3 : J3 → K3) : ∀ ops : List (Op J0 J1 J2 J3), m.run (ops.map (Op.map f0 f1 f2 f3)) = (m.only f0 f1 f2 f3).run ops
  | [] => rfl
  | op :: ops => by
    have h1 : m.step (Op.map f0 f1 f2 f3 op) = (m.only f0 f1 f2 f3).step op := by cases op <;> rfl
    rw [List.map_cons, Machine.run, h1, Machine.run_only m f0 f1 f2 f3 ops, Machine.run]

namespace DropIn
variable {A : Type}

/-- Constructors that `Chunk` and `RingBuffer` share (src/sized_chunk/mod.rs:129-194, 873-882; src/ring_buffer/mod.rs:225-292, 941-945). -/
inductive Ctor (A : Type) where
  | new | unit (v : A) | pair (v w : A) | collectFrom (n : Nat) (it : It A) | fromIter (it : It A)

/-- Calls that both types have with the same signature (src/sized_chunk/mod.rs:226-699, src/ring_buffer/mod.rs:319-758), among them
`drain`/`into_iter` step by step (`next`, `nextBack`, `sizeHint`) and `insert_from` with an iterator over `xs` that reports its length truthfully.
(`pop_front` and `pop_back` differ: `A` and `Option<A>`.) -/
inductive Un (A : Type) where
  | len | isEmpty | isFull | items
  | index (i : Nat) | set (i : Nat) (v : A)
  | pushFront (v : A) | pushBack (v : A)
  | dropLeft (i : Nat) | dropRight (i : Nat) | clear
  | insert (i : Nat) (v : A)
  | insertOrdered (search : List A → A → Option (Except Nat Nat)) (v : A)
  | insertFrom (i : Nat) (xs : List A)
  | remove (i : Nat)
  | extend (it : It A)
  | next | nextBack | sizeHint
  | mutate (f : List A → List A)
  | read (n : Nat)

/-- Calls producing another container. -/
inductive Fork where
  | drainFrom | splitOff (i : Nat) | clone

/-- Calls on two containers. -/
inductive Bin where
  | append | drainFromFront (n : Nat) | drainFromBack (n : Nat)

/-- One action of a client that uses only what the two types share. -/
abbrev Action (A : Type) := Op (Ctor A) (Un A) Fork Bin

def chunkCtor : Ctor A → Chunk.Ctor A
  | .new => .new | .unit v => .unit v | .pair v w => .pair v w | .collectFrom n it => .collectFrom n it | .fromIter it => .fromIter it
def ringCtor : Ctor A → Ring.Ctor A
  | .new => .new | .unit v => .unit v | .pair v w => .pair v w | .collectFrom n it => .collectFrom n it | .fromIter it => .fromIter it

def chunkUn : Un A → Chunk.Un A
  | .len => .len | .isEmpty => .isEmpty | .isFull => .isFull | .items => .asSlice
  | .index i => .index i | .set i v => .set i v
  | .pushFront v => .pushFront v | .pushBack v => .pushBack v
  | .dropLeft i => .dropLeft i | .dropRight i => .dropRight i | .clear => .clear
  | .insert i v => .insert i v | .insertOrdered s v => .insertOrdered s v
  | .insertFrom i xs => .insertFrom i xs.length (It.ofList xs)
  | .remove i => .remove i | .extend it => .extend it
  | .next => .next | .nextBack => .nextBack | .sizeHint => .sizeHint
  | .mutate f => .mutate f | .read n => .read n
def ringUn : Un A → Ring.Un A
  | .len => .len | .isEmpty => .isEmpty | .isFull => .isFull | .items => .items
  | .index i => .index i | .set i v => .set i v
  | .pushFront v => .pushFront v | .pushBack v => .pushBack v
  | .dropLeft i => .dropLeft i | .dropRight i => .dropRight i | .clear => .clear
  | .insert i v => .insert i v | .insertOrdered s v => .insertOrdered s v
  | .insertFrom i xs => .insertFrom i xs.length (It.ofList xs)
  | .remove i => .remove i | .extend it => .extend it
  | .next => .next | .nextBack => .nextBack | .sizeHint => .sizeHint
  | .mutate f => .mutate f | .read n => .read n

def chunkFork : Fork → Chunk.Fork
  | .drainFrom => .drainFrom | .splitOff i => .splitOff i | .clone => .clone
def ringFork : Fork → Ring.Fork
  | .drainFrom => .drainFrom | .splitOff i => .splitOff i | .clone => .clone

def chunkBin : Bin → Chunk.Bin
  | .append => .append | .drainFromFront n => .drainFromFront n | .drainFromBack n => .drainFromBack n
def ringBin : Bin → Ring.Bin
  | .append => .append | .drainFromFront n => .drainFromFront n | .drainFromBack n => .drainFromBack n

/-- The same action on chunks, and on ring buffers. -/
def onChunks : Action A → Op (Chunk.Ctor A) (Chunk.Un A) Chunk.Fork Chunk.Bin := Op.map chunkCtor chunkUn chunkFork chunkBin
def onRings : Action A → Op (Ring.Ctor A) (Ring.Un A) Ring.Fork Ring.Bin := Op.map ringCtor ringUn ringFork ringBin

variable {E : Env} {N : Nat} {dp : A → Bool} {cl : A → Option A}

theorem dropping_seq (hd : ∀ a, dp a = false) (d l l' log : List A) : Spec.dropping dp d l l' log = Spec.droppingSeq dp d l l' log := by
  rw [Spec.droppingSeq, any_total hd, if_neg (by simp), Spec.dropping, any_false_iff_countP.1 (any_total hd d)]
  rfl

theorem insertFrom_end (i : Nat) (xs : List A) :
    Spec.insertFrom N dp i xs.length (It.ofList xs) = Spec.insertFromOrExtend N dp i xs.length (It.ofList xs) := by
  funext s
  obtain ⟨l, log⟩ := s
  rw [Spec.insertFromOrExtend]
  split
  · rename_i h
    obtain ⟨h1, h2⟩ := h
    simp only at h1 h2
    rw [Chunk.specExtend_ok xs (by simpa using h1), 
      Chunk.specInsertFrom_ok ⟨h1, Nat.le_of_eq h2⟩ (by rw [It.items_ofList]; exact Nat.le_refl _)]
    · subst h2; simp [It.items_ofList, It.drop_ofList, It.owned_ofList]
    · simp [It.drop_ofList, It.owned_ofList]
  · rfl

/-- On lists the shared calls are the same. -/
theorem spec_same (hd : ∀ a, dp a = false) :
    (Chunk.specMachine E N dp cl).only chunkCtor chunkUn chunkFork chunkBin = (Ring.specMachine E N dp cl).only ringCtor ringUn ringFork ringBin := by
  simp only [Machine.only, Machine.mk.injEq]
  refine ⟨?_, ?_, ?_, ?_, ?_, ?_⟩
  · funext k; cases k <;> rfl
  · funext k
    cases k with
    | dropLeft i =>
      simp only [chunkUn, ringUn, Chunk.specMachine, Ring.specMachine]
      congr 1; funext s; simp only [Spec.dropLeft, Spec.dropLeftSeq, dropping_seq hd]
    | dropRight i =>
      simp only [chunkUn, ringUn, Chunk.specMachine, Ring.specMachine]
      congr 1; funext s; simp only [Spec.dropRight, Spec.dropRightSeq, dropping_seq hd]
    | clear =>
      simp only [chunkUn, ringUn, Chunk.specMachine, Ring.specMachine]
      congr 1; funext s; simp only [Spec.clear, Spec.clearSeq, dropping_seq hd]
    | insertFrom i xs => simp only [chunkUn, ringUn, Chunk.specMachine, Ring.specMachine, insertFrom_end]
    | _ => rfl
  · funext k; cases k <;> rfl
  · funext k; cases k <;> rfl
  · funext s; simp only [Chunk.specMachine, Ring.specMachine, Spec.drop, Spec.dropSeq, dropping_seq hd]
  · funext k l; cases k <;> rfl

end DropIn

open DropIn in
/-- C78. A program using only what `Chunk<A, N>` and `RingBuffer<A, N>` share, run with the one and with the other, sees the same: the same
results and panics at every call, the same destructor runs in the same order, the same clones, and in the end the same contents under every
handle.  (Destructors must not panic: see C15 and C35 for what differs then.) -/
theorem C78_drop_in_replacement {A : Type} {E : Env} {N : Nat} {dp : A → Bool} {cl : A → Option A} (hN : 0 < N) (hW : 2 * N < E.W)
    (hd : ∀ a, dp a = false) (prog : List (Action A)) :
    ∃ os w v, (Chunk.machine E N dp cl).run (prog.map onChunks) World.empty = .ok os w ∧
      (Ring.machine E N dp cl).run (prog.map onRings) World.empty = .ok os v ∧ w.log = v.log ∧ w.made = v.made ∧
      ∀ h, (w.heap h = none ∧ v.heap h = none) ∨
        ∃ c r l, w.heap h = some c ∧ v.heap h = some r ∧ Chunk.View E N c l ∧ Ring.View E N r l := by
  obtain ⟨os, w, hw⟩ := Chunk.C03_history_completes (cl := cl) hW hd (prog.map onChunks)
  obtain ⟨os', v, hv⟩ := Ring.C26_history_completes (cl := cl) hN hW hd (prog.map onRings)
  have h1 := Chunk.C01_history_refines_bounded_lists (dp := dp) (cl := cl) hW (prog.map onChunks)
  have h2 := Ring.C24_history_refines_bounded_lists (dp := dp) (cl := cl) hN hW (prog.map onRings)
  have e : (Chunk.specMachine E N dp cl).run (prog.map onChunks) = (Ring.specMachine E N dp cl).run (prog.map onRings) := by
    rw [show onChunks (A := A) = Op.map chunkCtor chunkUn chunkFork chunkBin from rfl, show onRings (A := A) = Op.map ringCtor ringUn ringFork ringBin from rfl,
      Machine.run_only, Machine.run_only, spec_same hd]
  rw [hw, e] at h1
  rw [hv] at h2
  obtain ⟨t, h3, h4⟩ := h1
  obtain ⟨t', h5, h6⟩ := h2
  rw [h3] at h5
  injection h5 with h5 h7
  subst h5 h7
  refine ⟨os, w, v, hw, hv, h4.log.trans h6.log.symm, h4.made.trans h6.made.symm, fun h => ?_⟩
  have a1 := h4.heap h
  have a2 := h6.heap h
  cases x : t.heap h with
  | none =>
    rw [x] at a1 a2
    left
    cases y : w.heap h <;> cases z : v.heap h <;> simp_all [RelOpt]
  | some l =>
    rw [x] at a1 a2
    right
    cases y : w.heap h <;> cases z : v.heap h <;> simp_all [RelOpt]
    exact ⟨l, a1, a2⟩

open DropIn in
/-- A program for the example: it fills, wraps, refuses, splits and joins. -/
def DropIn.demo : List (Action Nat) :=
  [.ctor (.pair 1 2), .un 0 (.pushFront 3), .un 0 (.insertFrom 1 [7, 8]), .un 0 (.remove 0), .un 0 (.insertFrom 2 [9]), .un 0 .items, .un 0 (.insert 9 9),
   .fork 0 (.splitOff 1), .bin 1 0 .append, .un 1 .nextBack, .un 1 (.dropLeft 1), .un 1 .items, .drop 1]

/-- C78 is not vacuous: both runs, in the kernel. -/
example : ((Chunk.machine Chunk.dbg64 4 (fun _ => false) some).run (DropIn.demo.map DropIn.onChunks) World.empty).seen =
    some [.handle 0, .res .unit, .panicked, .res (.val 3), .res .unit, .res (.refs [1, 2, 9]), .panicked, .handle 1, .res .unit, .res (.opt (some 1)),
      .res .unit, .res (.refs [9]), .res .unit] := by decide +kernel
example : ((Ring.machine Chunk.dbg64 4 (fun _ => false) some).run (DropIn.demo.map DropIn.onRings) World.empty).seen =
    ((Chunk.machine Chunk.dbg64 4 (fun _ => false) some).run (DropIn.demo.map DropIn.onChunks) World.empty).seen := by decide +kernel
end Verif
