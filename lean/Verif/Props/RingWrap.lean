import Verif.Props.RingBulk
import Verif.Props.RingSlices
/-
C26, C31, C32: release builds, `insert_from` of an iterator that announces `usize::MAX` items, in front of the end.
-/
namespace Verif.Ring
open Chunk (dbg64 rel64)
variable {A σ : Type} {E : Env} {N : Nat} {dp : A → Bool} {c : Ring A} {l : List A}

/-- If one more than a multiple of `N` fits `usize` values exactly, `while other > start { start += N }` with `other = usize::MAX` visits, wrapping around, values until it comes to
`usize::MAX` itself. -/
theorem subLoop_arrives (he : E.debug = false) {q : Nat} (hq : N * q + 1 = E.W) (t : σ) (f s : Nat) (hs : s < E.W) (hf : q * (s + 1) % E.W < f) :
    subLoop E N (E.W - 1) f s t = .ok (E.W - 1) t := by
  induction f generalizing s with
  | zero => omega
  | succ f ih =>
    have hw : 0 < E.W := by omega
    by_cases hlt : s < E.W - 1
    · have e : uadd E s N t = .ok ((s + N) % E.W) t := by
        unfold uadd
        split
        · rw [Nat.mod_eq_of_lt (by assumption)]; rfl
        · simp [he, M.pure_run]
      have step : q * ((s + N) % E.W + 1) % E.W + 1 = q * (s + 1) % E.W := by
        have h0 : q * (s + 1) % E.W ≠ 0 := by
          intro h
          have h1 : E.W ∣ N * (q * (s + 1)) := Nat.dvd_trans (Nat.dvd_of_mod_eq_zero h) ⟨N, Nat.mul_comm _ _⟩
          have h2 : N * (q * (s + 1)) + (s + 1) = E.W * (s + 1) := by rw [← hq, Nat.add_mul, Nat.mul_assoc, Nat.one_mul]
          have h3 : E.W ∣ s + 1 := (Nat.dvd_add_right h1).1 (h2 ▸ ⟨s + 1, rfl⟩)
          have := Nat.le_of_dvd (by omega) h3
          omega
        have h4 : q * ((s + N) % E.W + 1) + E.W * (q * ((s + N) / E.W)) = q * (s + 1) + (E.W - 1) := by
          have h5 := Nat.div_add_mod (s + N) E.W
          have h6 : q * ((s + N) % E.W + 1) + E.W * (q * ((s + N) / E.W)) = q * (E.W * ((s + N) / E.W) + (s + N) % E.W + 1) := by
            simp only [Nat.mul_add, Nat.mul_one, Nat.mul_left_comm E.W q]; omega
          rw [h6, h5, show s + N + 1 = (s + 1) + N by omega, Nat.mul_add, Nat.mul_comm q N]
          omega
        have h7 : q * ((s + N) % E.W + 1) % E.W = (q * (s + 1) + (E.W - 1)) % E.W := by rw [← h4, Nat.add_mul_mod_self_left]
        have h8 := Nat.div_add_mod (q * (s + 1)) E.W
        have h9 := Nat.mod_lt (q * (s + 1)) hw
        rw [h7, show q * (s + 1) + (E.W - 1) = (q * (s + 1) % E.W - 1) + E.W * (q * (s + 1) / E.W + 1) by rw [Nat.mul_add E.W]; omega, Nat.add_mul_mod_self_left,
          Nat.mod_eq_of_lt (a := q * (s + 1) % E.W - 1) (by omega)]
        omega
      simp only [subLoop, gt_iff_lt, hlt, if_true, M.bind_run, e, Out.andThen_ok]
      exact ih _ (Nat.mod_lt _ hw) (by omega)
    · have : s = E.W - 1 := by omega
      subst this
      simp [subLoop]

/-- C32 (and C31, and C26 without its side condition) fail in release builds: if `2^w` is one more than a multiple of the capacity (so for 3 in every usual width), a buffer
whose slot 0 was never written, asked to insert somewhere in the first half an iterator that announces `usize::MAX` items, reads that slot: undefined behaviour,
before anything of the iterator is looked at. -/
theorem C32_uninitialised_read_counterexample (hW : 2 * N < E.W) (he : E.debug = false) (hm : E.W % N = 1) (h : View E N c l) (h0 : c.mem 0 = none) (i : Nat)
    (hi : 1 ≤ i) (hil : 2 * i ≤ l.length) (it : It A) (log : List A) :
    insertFrom E N dp i (some (E.W - 1)) it (c, log) = .ub := by
  have hr := h.rep hW
  have hlen := hr.len
  have hle := hr.le
  have ho := hr.org
  have hN : 0 < N := by omega
  obtain ⟨q, hq⟩ : ∃ q, N * q + 1 = E.W := ⟨E.W / N, by have := Nat.div_add_mod E.W N; omega⟩
  have e : ∀ d : Ring A, rawSubAssign E N c.origin (E.W - 1) d = .ok 0 d := by
    intro d
    simp [rawSubAssign, subLoop_arrives he hq d E.W c.origin (by omega) (Nat.mod_lt _ (by omega)), usub]
    intro hlt; omega
  have hz : (E.W - 1) % N = 0 := by rw [← hq]; simp
  have hu : (l.length + (E.W - 1)) % E.W = l.length - 1 := by
    rw [show l.length + (E.W - 1) = (l.length - 1) + E.W by omega, Nat.add_mod_right, Nat.mod_eq_of_lt (by omega)]
  have h1 : ¬ l.length + (E.W - 1) < E.W := by omega
  have h2 : ¬ N < l.length - 1 := by omega
  have e2 : insertFromChecks E N i (E.W - 1) c = .ok () c := by
    simp [insertFromChecks, getLen, hlen, uadd, h1, he, hu, M.panicIf, h2, show ¬ l.length < i by omega]
  have e3 : ∀ d : Ring A, rawAdd E N 0 (l.length - 1) d = .ok (l.length - 1) d := by
    intro d
    simp [rawAdd, uadd, show l.length - 1 < E.W by omega, addLoop_mod hN, Nat.mod_eq_of_lt (show l.length - 1 < N by omega), rawFrom, M.debugAssert, he]
  have e4 : ∀ d : Ring A, rawAdd E N 0 (E.W - 1) d = .ok 0 d := by
    intro d
    simp [rawAdd, uadd, show E.W - 1 < E.W by omega, addLoop_mod hN, hz, rawFrom, M.debugAssert, he]
  have e1 : shiftLeft E N i (E.W - 1) c = .ub := by
    obtain ⟨k, hk⟩ : ∃ k, min i (l.length - 1) = k + 1 := ⟨min i (l.length - 1) - 1, by omega⟩
    have hn1 : 1 ≤ N := hN
    simp only [shiftLeft, M.bind_run, getOrigin, Out.andThen_ok, e, setOrigin, getLen, hlen, uadd, if_neg h1, he, Bool.false_eq_true, if_false, M.pure_run, hu, setLen,
      range, e3, takeIdx, hk, forIdx, forLoop, idxNext, gt_iff_lt, Nat.zero_lt_succ, if_true, usub, Nat.le_add_left, rawInc, hn1]
    by_cases hn : 0 = N - 1
    · omega
    · simp [hn, show 1 < E.W by omega, e4, forceRead, M.debugAssert, he, getMem, memRead, hN, h0]
  simp [insertFrom, M.lenCall, M.onUnwind, e2, getLen, hlen, usub, e1, show i ≤ l.length by omega, show ¬ i = l.length by omega, show ¬ l.length - i < i by omega]

/-- Two pushes at the front of a `RingBuffer<_, 3>` give such a buffer, in a release build on a 64-bit machine: `insert_from(1, 0..usize::MAX)` is then undefined
behaviour. (There `usize::MAX` is the honest length.) -/
example : ∃ c : Ring Nat, (do pushFront rel64 3 20; pushFront rel64 3 10 : M (Ring Nat) Unit) ⟨0, 0, Mem.uninit⟩ = .ok () c ∧
    insertFrom rel64 3 (fun _ => false) 1 (some (2 ^ 64 - 1)) (It.ofList []) (c, []) = .ub := by
  have hc : (do pushFront rel64 3 20; pushFront rel64 3 10 : M (Ring Nat) Unit) ⟨0, 0, Mem.uninit⟩ = .ok () ⟨1, 2, (Mem.uninit.put 2 20).put 1 10⟩ := rfl
  exact ⟨_, hc, C32_uninitialised_read_counterexample (E := rel64) (N := 3) (l := [10, 20]) (by decide) rfl (by decide) ⟨rfl, by decide, by decide⟩ rfl 1 (by decide) (by decide) _ _⟩
end Verif.Ring
