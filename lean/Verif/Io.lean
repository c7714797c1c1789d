import Verif.Driver
/-
The provided methods of `std::io::Write` and `std::io::Read` that drive `write` and `read` until a whole buffer is done.  They are code of
the standard library, not of the crate (the crate only implements `write`, `read` and `flush`: src/sized_chunk/mod.rs:782-807,
src/ring_buffer/mod.rs:907-938); they are written down here from its documentation so that what a client sees through them can be stated.
-/
namespace Verif.Io
variable {A C : Type}

/-- `io::Write::write_all` on top of `write`: call `write` with what is left until nothing is; `false` is the error `WriteZero`, returned
when `write` accepts nothing.  Every turn but the last takes at least one byte, so `buf.len() + 1` turns are enough. -/
def writeLoop (write : List A → M C Nat) : Nat → List A → M C Bool
  | 0, _ => M.diverge
  | fuel + 1, buf =>
    if buf.isEmpty = true then pure true
    else do
      let n ← write buf
      if n = 0 then return false
      else
        M.panicIf (n > buf.length)      -- `&buf[n..]`
        writeLoop write fuel (buf.drop n)

/-- `io::Write::write_all`. -/
def writeAll (write : List A → M C Nat) (buf : List A) : M C Bool := writeLoop write (buf.length + 1) buf

/-- `io::Read::read_exact` on top of `read`: call `read` with the rest of a buffer of `n` bytes until it is full or `read` returns 0; the
bytes stored in the buffer, and whether it is full (`false` is the error `UnexpectedEof`). -/
def readLoop (read : Nat → M C (Nat × List A)) : Nat → Nat → M C (Bool × List A)
  | 0, _ => M.diverge
  | fuel + 1, n =>
    if n = 0 then pure (true, [])
    else do
      let r ← read n
      if r.1 = 0 then return (false, [])
      else
        M.panicIf (r.1 > n)      -- `&mut buf[r..]`
        let q ← readLoop read fuel (n - r.1)
        return (q.1, r.2 ++ q.2)

/-- `io::Read::read_exact` with a buffer of `n` bytes. -/
def readExact (read : Nat → M C (Nat × List A)) (n : Nat) : M C (Bool × List A) := readLoop read (n + 1) n

/-- `io::Read::read_to_end` on top of `read`: call `read` until it returns 0, appending what it returns.  How much room is offered at each
turn is up to the standard library: `room k` bytes, `k` being the number of turns already made.  `fuel` bounds the turns. -/
def readToEnd (read : Nat → M C (Nat × List A)) (room : Nat → Nat) : Nat → Nat → M C (List A)
  | 0, _ => M.diverge
  | fuel + 1, k => do
    let r ← read (room k)
    if r.1 = 0 then return []
    else
      let q ← readToEnd read room fuel (k + 1)
      return r.2 ++ q

variable {V : C → List A → Prop} {N : Nat}

theorem writeAll_of {write : List A → M C Nat}
    (hw : ∀ c l buf, V c l → Returns V (write buf c) (min buf.length (N - l.length)) (l ++ buf.take (N - l.length)))
    {c : C} {l : List A} (h : V c l) (buf : List A) :
    Returns V (writeAll write buf c) (decide (buf.length ≤ N - l.length)) (l ++ buf.take (N - l.length)) := by
  unfold writeAll
  generalize hf : buf.length + 1 = fuel
  replace hf : buf.length < fuel := by omega
  induction fuel generalizing buf c l with
  | zero => omega
  | succ f ih =>
    unfold writeLoop
    cases hb : buf with
    | nil => exact ⟨c, by simp, by simpa using h⟩
    | cons x xs =>
      rw [← hb]
      have hne : buf.isEmpty = false := by simp [hb]
      have hpos : 0 < buf.length := by simp [hb]
      obtain ⟨s, e, h1⟩ := hw c l buf h
      simp only [hne, Bool.false_eq_true, if_false, M.bind_run, e, Out.andThen_ok]
      by_cases h0 : min buf.length (N - l.length) = 0
      · rw [M.ite_run, if_pos h0]
        refine ⟨s, ?_, h1⟩
        rw [M.pure_run]; congr 1
        symm; simp; omega
      · rw [M.ite_run, if_neg h0]
        simp only [M.bind_run, M.panicIf, if_neg (show ¬ min buf.length (N - l.length) > buf.length by omega), M.pure_run, Out.andThen_ok]
        obtain ⟨s', e', h2⟩ := ih h1 (buf.drop (min buf.length (N - l.length))) (by simp; omega)
        refine ⟨s', ?_, ?_⟩
        · rw [e']; congr 1
          rw [decide_eq_decide]
          simp only [List.length_drop, List.length_append, List.length_take]
          omega
        · refine Eq.mp (congrArg (V s') ?_) h2
          by_cases hc : buf.length ≤ N - l.length
          · rw [Nat.min_eq_left hc, List.take_of_length_le hc, List.drop_length]; simp
          · rw [Nat.min_eq_right (by omega)]
            simp [List.length_take, show N - (l.length + min (N - l.length) buf.length) = 0 by omega]

theorem readExact_of {read : Nat → M C (Nat × List A)}
    (hr : ∀ c l n, V c l → Returns V (read n c) (min n l.length, l.take n) (l.drop n))
    {c : C} {l : List A} (h : V c l) (n : Nat) :
    Returns V (readExact read n c) (decide (n ≤ l.length), l.take n) (l.drop n) := by
  unfold readExact
  generalize hf : n + 1 = fuel
  replace hf : n < fuel := by omega
  induction fuel generalizing n c l with
  | zero => omega
  | succ f ih =>
    unfold readLoop
    by_cases hn : n = 0
    · subst hn; exact ⟨c, by simp, by simpa using h⟩
    · rw [if_neg hn]
      obtain ⟨s, e, h1⟩ := hr c l n h
      simp only [M.bind_run, e, Out.andThen_ok]
      by_cases h0 : min n l.length = 0
      · rw [M.ite_run, if_pos h0]
        have : l = [] := List.length_eq_zero_iff.1 (by omega)
        subst this
        exact ⟨s, by simp [hn], h1⟩
      · rw [M.ite_run, if_neg h0]
        simp only [M.bind_run, M.panicIf, if_neg (show ¬ min n l.length > n by omega), M.pure_run, Out.andThen_ok]
        obtain ⟨s', e', h2⟩ := ih h1 (n - min n l.length) (by omega)
        rw [e']
        simp only [Out.andThen_ok]
        by_cases hc : n ≤ l.length
        · rw [Nat.min_eq_left hc] at e' h2 ⊢
          refine ⟨s', by simp [hc], by simpa using h2⟩
        · have hd : l.drop n = [] := List.drop_eq_nil_of_le (by omega)
          rw [hd] at h2 ⊢
          refine ⟨s', ?_, by simpa using h2⟩
          simp [hc]; omega

theorem readToEnd_of {read : Nat → M C (Nat × List A)}
    (hr : ∀ c l n, V c l → Returns V (read n c) (min n l.length, l.take n) (l.drop n))
    {room : Nat → Nat} (hroom : ∀ k, 0 < room k) {c : C} {l : List A} (h : V c l) (k : Nat) :
    ∀ fuel, l.length < fuel → Returns V (readToEnd read room fuel k c) l [] := by
  intro fuel
  induction fuel generalizing c l k with
  | zero => omega
  | succ f ih =>
    intro hf
    unfold readToEnd
    obtain ⟨s, e, h1⟩ := hr c l (room k) h
    have := hroom k
    simp only [M.bind_run, e, Out.andThen_ok]
    by_cases h0 : min (room k) l.length = 0
    · rw [M.ite_run, if_pos h0]
      have : l = [] := List.length_eq_zero_iff.1 (by omega)
      subst this
      exact ⟨s, by simp, by simpa using h1⟩
    · rw [M.ite_run, if_neg h0]
      obtain ⟨s', e', h2⟩ := ih h1 (k + 1) (by simp; omega)
      simp only [M.bind_run, e', Out.andThen_ok, M.pure_run]
      exact ⟨s', by simp, h2⟩

end Verif.Io
