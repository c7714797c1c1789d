import Verif.AliasGuard
/-
The small functions the containers' methods are made of (`ptr`, `mut_ptr`, `as_mut_slice`, …), each with its own argument protected while it runs.
-/
namespace Verif.Alias
open Verif
variable {σ α : Type}

/-- What a function does with the reference it is given, and with pointers derived from it.  It knows its pointers by number, `0` being the newest. -/
inductive Body where
  | ret
  | read (i : Nat) (cells : List Cell) (k : Body)
  | write (i : Nat) (cells : List Cell) (k : Body)
  | reMut (i : Nat) (cells : List Cell) (k : Body)
  | reShr (i : Nat) (cells : List Cell) (k : Body)
  | raw (i : Nat) (cells : List Cell) (k : Body)
  /-- It passes `&*p` to another function, and gets its pointers. -/
  | look (i : Nat) (cells : List Cell) (body k : Body)

/-- Do it; `R gs` are the rules that hold while the references `gs` are the arguments of functions which have not returned.  The result is the pointers. -/
def Body.run (R : List Arg → Rules σ) (gs : List Arg) : List Tag → Body → P σ (List Tag)
  | ps, .ret => pure ps
  | ps, .read i cells k => match ps[i]? with
    | none => fun _ => none
    | some p => do (R gs).read p cells; k.run R gs ps
  | ps, .write i cells k => match ps[i]? with
    | none => fun _ => none
    | some p => do (R gs).write p cells; k.run R gs ps
  | ps, .reMut i cells k => match ps[i]? with
    | none => fun _ => none
    | some p => do let n ← (R gs).reMut p cells; k.run R gs (n :: ps)
  | ps, .reShr i cells k => match ps[i]? with
    | none => fun _ => none
    | some p => do let n ← (R gs).reShr p cells; k.run R gs (n :: ps)
  | ps, .raw i cells k => match ps[i]? with
    | none => fun _ => none
    | some p => do let n ← (R gs).raw p cells; k.run R gs (n :: ps)
  | ps, .look i cells body k => match ps[i]? with
    | none => fun _ => none
    | some p => do
      let a ← (R gs).reShr p cells
      let qs ← body.run R (⟨a, false, cells⟩ :: gs) [a]
      k.run R gs (qs ++ ps)

/-- Calling a function on `&mut *t` (`w`) or `&*t`. -/
def Body.call (R : List Arg → Rules σ) (w : Bool) (t : Tag) (cells : List Cell) (body : Body) : P σ (List Tag) := do
  let a ← if w = true then (R []).reMut t cells else (R []).reShr t cells
  body.run R [⟨a, w, cells⟩] [a]

/-- Tree Borrows in functions with the arguments `gs`: their cells are accessed through what is derived from them only, and they stay valid. -/
def TB.protecting (gs : List Arg) : Rules TB where
  reMut t cells := guarding TB.rules gs ((TB.exclusive gs).reMut t cells)
  reShr t cells := guarding TB.rules gs ((TB.exclusive gs).reShr t cells)
  raw t cells := guarding TB.rules gs ((TB.exclusive gs).raw t cells)
  read t cells := guarding TB.rules gs ((TB.exclusive gs).read t cells)
  write t cells := guarding TB.rules gs ((TB.exclusive gs).write t cells)

/-! ### The code's helpers, for container `x` of capacity `N` -/

section
variable (N x : Nat)

/-- A `&self` method that reads a field: src/sized_chunk/mod.rs:226-228, src/ring_buffer/mod.rs:81-83 `len`. -/
def Body.len : Body := .read 0 [.head x] .ret
/-- src/sized_chunk/mod.rs:243-245, src/ring_buffer/mod.rs:121-124 `ptr`. -/
def Body.ptr : Body := .reShr 0 (slots x N) .ret
/-- src/sized_chunk/mod.rs:249-251, src/ring_buffer/mod.rs:127-130 `mut_ptr`. -/
def Body.mutPtr : Body := .reMut 0 (slots x N) (.raw 0 (slots x N) .ret)
/-- src/inline_array/mod.rs:151-160 `len_const`, 177-189 `data`. -/
def Body.dataConst : Body := .reShr 0 (whole x N) .ret
/-- src/inline_array/mod.rs:193-205 `data_mut`, 164-173 `len_mut`. -/
def Body.dataMut : Body := .reMut 0 (whole x N) (.raw 0 (whole x N) .ret)
/-- src/inline_array/mod.rs:234-236 `len`. -/
def Body.inlineLen : Body := .reShr 0 (whole x N) (.read 0 [.head x] .ret)
/-- src/sized_chunk/mod.rs:682-689 `as_slice`, of `n` items from slot `lo`. -/
def Body.asSlice (lo n : Nat) : Body :=
  .reShr 0 (slots x N) (.read 1 [.head x] (.look 1 (whole x N) (.len x) (.reShr 1 (span x lo n) .ret)))
/-- src/sized_chunk/mod.rs:692-699 `as_mut_slice`. -/
def Body.asMutSlice (lo n : Nat) : Body :=
  .reMut 0 (slots x N) (.raw 0 (slots x N) (.read 2 [.head x] (.look 2 (whole x N) (.len x) (.reMut 1 (span x lo n) .ret))))
/-- src/sparse_chunk/mod.rs:94-96 `values`. -/
def Body.values : Body := .reShr 0 (slots x N) (.reShr 0 (slots x N) .ret)
/-- src/sparse_chunk/mod.rs:99-101 `values_mut`. -/
def Body.valuesMut : Body := .reMut 0 (slots x N) (.raw 0 (slots x N) (.reMut 0 (slots x N) .ret))
/-- An item's destructor, which gets a `&mut` to it, and may read and write it (src/ring_buffer/mod.rs:134-136 `force_drop`). -/
def Body.destroy (i : Nat) : Body := .read 0 [.slot x i] (.write 0 [.slot x i] .ret)
/-- src/inline_array/mod.rs:444-446 `deref`, of `n` items. -/
def Body.deref (n : Nat) : Body := .reShr 0 (whole x N) (.look 1 (whole x N) (.inlineLen N x) (.reShr 2 (span x 0 n) .ret))
/-- src/inline_array/mod.rs:450-452 `deref_mut`. -/
def Body.derefMut (n : Nat) : Body :=
  .reMut 0 (whole x N) (.raw 0 (whole x N) (.look 2 (whole x N) (.inlineLen N x) (.reMut 2 (span x 0 n) .ret)))

end

/-! ### The methods' pointer operations, with protectors in the helpers

`R` are the rules in the method itself, `H gs` those in a helper with the arguments `gs`.  The lines modelled are those given for the same names in Alias.lean. -/

section
variable (R : Rules σ) (H : List Arg → Rules σ) (N : Nat)

/-- `lenOf` of Alias.lean (src/sized_chunk/mod.rs:226-228, src/ring_buffer/mod.rs:81-83). -/
def lenOfIn (x : Nat) (b : Tag) : P σ Unit := do let _ ← Body.call H false b (whole x N) (.len x)
/-- `ptr` (src/sized_chunk/mod.rs:243-245, src/ring_buffer/mod.rs:121-124). -/
def ptrIn (x : Nat) (b : Tag) : P σ Tag := do return (← Body.call H false b (whole x N) (.ptr N x)).headD 0
/-- `mutPtr` (src/sized_chunk/mod.rs:249-251, src/ring_buffer/mod.rs:127-130). -/
def mutPtrIn (x : Nat) (b : Tag) : P σ Tag := do return (← Body.call H true b (whole x N) (.mutPtr N x)).headD 0
/-- `dataConst` (src/inline_array/mod.rs:151-160, 177-189). -/
def dataConstIn (x : Nat) (b : Tag) : P σ Tag := do return (← Body.call H false b (whole x N) (.dataConst N x)).headD 0
/-- `dataMut` (src/inline_array/mod.rs:164-173, 193-205). -/
def dataMutIn (x : Nat) (b : Tag) : P σ Tag := do return (← Body.call H true b (whole x N) (.dataMut N x)).headD 0
/-- `readLen` (src/inline_array/mod.rs:234-236). -/
def readLenIn (x : Nat) (b : Tag) : P σ Unit := do let _ ← Body.call H false b (whole x N) (.inlineLen N x)
/-- `setLen` (src/inline_array/mod.rs:304, 318, 341, 359, 381-382, 399). -/
def setLenIn (x : Nat) (b : Tag) : P σ Unit := do
  let p ← dataMutIn H N x b
  R.read p [.head x]
  R.write p [.head x]

/-- `Call.run` of Alias.lean (which cites the code case by case) with the helpers' arguments protected. -/
def Call.runIn (b : Nat → Tag) : Call → P σ Unit
  | .field x w => if w = true then R.write (b x) [.head x] else R.read (b x) [.head x]
  | .len x => lenOfIn H N x (b x)
  | .readAt x i => do
    let p ← ptrIn H N x (b x)
    R.read p [.slot x i]
  | .writeAt x i => do
    let p ← mutPtrIn H N x (b x)
    R.write p [.slot x i]
  | .dropAt x i => do
    let p ← mutPtrIn H N x (b x)
    let _ ← Body.call H true p [.slot x i] (.destroy x i)
  | .getRef x i => do
    let p ← ptrIn H N x (b x)
    let r ← R.reShr p [.slot x i]
    R.read r [.slot x i]
  | .getMut x i => do
    let p ← mutPtrIn H N x (b x)
    let r ← R.reMut p [.slot x i]
    R.read r [.slot x i]
    R.write r [.slot x i]
  | .copyWithin x frm to count => do
    if count > 0 then
      let p ← ptrIn H N x (b x)
      let q ← mutPtrIn H N x (b x)
      R.read p (span x frm count)
      R.write q (span x to count)
    else pure ()
  | .copyTo x y frm to count => do
    if count > 0 then
      let p ← ptrIn H N x (b x)
      let q ← mutPtrIn H N y (b y)
      R.read p (span x frm count)
      R.write q (span y to count)
    else pure ()
  | .ringCopy x y frm to count => do
    if count > 0 then
      let p ← mutPtrIn H N x (b x)
      let q ← mutPtrIn H N y (b y)
      R.read p (span x frm count)
      R.write q (span y to count)
    else pure ()
  | .slice x lo n i => do
    let r := (← Body.call H false (b x) (whole x N) (.asSlice N x lo n)).headD 0
    R.read r [.slot x i]
  | .sliceMut x lo n i => do
    let r := (← Body.call H true (b x) (whole x N) (.asMutSlice N x lo n)).headD 0
    R.read r [.slot x i]
    R.write r [.slot x i]
  | .values x i => do
    let vs := (← Body.call H false (b x) (whole x N) (.values N x)).headD 0
    let r ← R.reShr vs [.slot x i]
    R.read r [.slot x i]
  | .valuesMut x i => do
    let vs := (← Body.call H true (b x) (whole x N) (.valuesMut N x)).headD 0
    let r ← R.reMut vs [.slot x i]
    R.read r [.slot x i]
    R.write r [.slot x i]
  | .inlineLen x => readLenIn H N x (b x)
  | .inlineSetLen x => setLenIn R H N x (b x)
  | .inlineRead x i => do
    let p ← dataConstIn H N x (b x)
    R.read p [.slot x i]
  | .inlineWrite x i => do
    let p ← dataMutIn H N x (b x)
    R.write p [.slot x i]
  | .inlineInsert x i k => do
    let src ← dataMutIn H N x (b x)
    readLenIn H N x (b x)
    R.read src (span x i (k - i))
    R.write src (span x (i + 1) (k - i))
    R.write src [.slot x i]
    setLenIn R H N x (b x)
  | .inlineRemove x i k => do
    let src ← dataMutIn H N x (b x)
    R.read src [.slot x i]
    setLenIn R H N x (b x)
    readLenIn H N x (b x)
    R.read src (span x (i + 1) (k - 1 - i))
    R.write src (span x i (k - 1 - i))
  | .inlineCopy x y frm count => do
    let p ← dataConstIn H N x (b x)
    let q ← dataMutIn H N y (b y)
    readLenIn H N x (b x)
    R.read p (span x frm count)
    R.write q (span y 0 count)
  | .inlineDeref x n i => do
    let r := (← Body.call H false (b x) (whole x N) (.deref N x n)).headD 0
    R.read r [.slot x i]
  | .inlineDerefMut x n i => do
    let r := (← Body.call H true (b x) (whole x N) (.derefMut N x n)).headD 0
    R.read r [.slot x i]
    R.write r [.slot x i]

/-- A method: its calls in order. -/
def runCallsIn (b : Nat → Tag) : List Call → P σ Unit
  | [] => pure ()
  | c :: cs => do
    c.runIn R H N b
    runCallsIn b cs

end

end Verif.Alias
