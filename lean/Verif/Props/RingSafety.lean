import Verif.Ring.Raw
import Verif.Props.RingHistory
/-
C26 for clients that do not hold back (`rawMachine`, Ring/Raw.lean): slices indexed outside their range, irregular bounds, debug `write`.
-/
namespace Verif.Ring
open Verif.Chunk (dbg64 rel64)
variable {A : Type} {E : Env} {N : Nat} {dp : A → Bool} {cl : A → Option A}

/-- C26, also for the calls whose results are wrong (C39, C40, C41): whatever slices are taken with whatever bounds, wherever they are
indexed, in both builds, no history reaches undefined behaviour or an infinite loop. -/
theorem C26_raw_no_undefined_behaviour (hN : 0 < N) (hW : 2 * N < E.W) (ops : List (Op (Ctor A) (Un A) Fork Bin)) :
    (rawMachine E N dp cl).run ops World.empty ≠ .ub ∧ (rawMachine E N dp cl).run ops World.empty ≠ .diverge := by
  have h := (rawKeeps (dp := dp) (cl := cl) hN hW).run ops (w := World.empty) (fun _ _ e => by cases e)
  constructor <;> intro e <;> rw [e] at h <;> exact h

/-- C26 and C25, for the same clients: unless it aborts, such a history makes one observation per call, and every buffer still alive can
be iterated, has its origin inside the storage and at most `N` items. -/
theorem C26_raw_buffers_stay_whole (hN : 0 < N) (hW : 2 * N < E.W) (ops : List (Op (Ctor A) (Un A) Fork Bin)) :
    (rawMachine E N dp cl).run ops World.empty = .abort ∨
    ∃ os w, (rawMachine E N dp cl).run ops World.empty = .ok os w ∧ os.length = ops.length ∧
      ∀ h c, w.heap h = some c → ∃ l, items E N c = .ok l c ∧ l.length = c.length ∧ l.length ≤ N ∧ c.origin < N := by
  have h := (rawKeeps (dp := dp) (cl := cl) hN hW).run ops (w := World.empty) (fun _ _ e => by cases e)
  cases hx : (rawMachine E N dp cl).run ops World.empty <;> rw [hx] at h <;> simp only [Sat] at h
  · right
    refine ⟨_, _, rfl, h.1, fun i c e => ?_⟩
    obtain ⟨l, hl⟩ := h.2 i c e
    exact ⟨l, (hl.view hW).1, hl.len.symm, hl.le, hl.org⟩
  · left; rfl

/-- C26 is not vacuous: the wrong answers of C39 and C40 in a release build, the panic of C41 in a debug build, and a buffer that goes on
working after each. -/
example : ((rawMachine rel64 4 (fun _ => false) (fun a => some a)).run
    [.ctor (.pair 1 2), .un 0 (.pushFront 3), .un 0 (.slice (.included 0) (.excluded 1) [] (.index 2)),
     .un 0 (.slice .unbounded (.included (2 ^ 64 - 1)) [] .items), .un 0 (.slice .unbounded (.excluded 1) [] (.set 2 9)), .un 0 .items] World.empty).seen
    = some [.handle 0, .res .unit, .res (.ref 2), .res (.refs []), .res (.val 2), .res (.refs [3, 1, 9])] := by decide +kernel
example : ((rawMachine dbg64 4 (fun _ => false) (fun a => some a)).run
    [.ctor (.pair 1 2), .un 0 .popFront, .un 0 (.pushBack 3), .un 0 (.write [5, 6]), .un 0 .items, .un 0 (.pushBack 4), .un 0 .items] World.empty).seen
    = some [.handle 0, .res (.opt (some 1)), .res .unit, .panicked, .res (.refs [2, 3]), .res .unit, .res (.refs [2, 3, 4])] := by decide +kernel

end Verif.Ring
