import Verif.Driver
import Verif.Inline.Model
/-
Layout arithmetic of `InlineArray` and the effect of the primitive accesses.
-/
namespace Verif

theorem pow2_dvd {a b : Nat} (ha : ∃ k, a = 2 ^ k) (hb : ∃ k, b = 2 ^ k) (h : a ≤ b) : a ∣ b := by
  obtain ⟨i, rfl⟩ := ha
  obtain ⟨j, rfl⟩ := hb
  exact Nat.pow_dvd_pow 2 ((Nat.pow_le_pow_iff_right (by omega)).1 h)

theorem pow2_pos {a : Nat} (ha : ∃ k, a = 2 ^ k) : 0 < a := by
  obtain ⟨i, rfl⟩ := ha; exact Nat.pos_of_ne_zero (by simp)

theorem pow2_max {a b : Nat} (ha : ∃ k, a = 2 ^ k) (hb : ∃ k, b = 2 ^ k) : ∃ k, max a b = 2 ^ k := by
  rcases Nat.le_total a b with h | h
  · rw [Nat.max_eq_right h]; exact hb
  · rw [Nat.max_eq_left h]; exact ha

theorem roundUp_zero (a : Nat) : roundUp 0 a = 0 := by
  unfold roundUp
  cases a with
  | zero => simp
  | succ a => rw [show 0 + (a + 1) - 1 = a by omega, Nat.div_eq_of_lt (by omega)]; simp

theorem roundUp_dvd {n a : Nat} (ha : 0 < a) (h : a ∣ n) : roundUp n a = n := by
  obtain ⟨k, rfl⟩ := h
  unfold roundUp
  have : (a * k + a - 1) / a = k := by
    rw [Nat.add_sub_assoc (by omega), Nat.mul_add_div ha, Nat.div_eq_of_lt (by omega)]; omega
  rw [this, Nat.mul_comm]

namespace Layout
variable {A : Type} {E : Env} {L : Layout A}

theorem align_eq (h : L.Valid E) : L.align = max L.pairAlign L.hostAlign := by
  have h1 := pow2_pos h.pairAlign
  simp only [align, fields, List.foldl_cons, List.foldl_nil]
  omega
theorem dataOffset_eq (L : Layout A) : L.dataOffset = 0 := by
  simp [dataOffset, fields, reprC, roundUp_zero]
theorem size_eq (L : Layout A) : L.size = roundUp L.hostSize L.align := by
  simp [size, fields, reprC, roundUp_zero]

variable (h : L.Valid E)
include h
theorem Valid.align_pow2 : ∃ k, L.align = 2 ^ k := by
  rw [align_eq h]; exact pow2_max h.pairAlign h.hostAlign
theorem Valid.headerAlign_dvd : L.headerAlign ∣ L.align := by
  refine pow2_dvd h.headerAlign h.align_pow2 ?_
  rw [align_eq h]; have := h.pair; omega
theorem Valid.hostAlign_dvd : L.hostAlign ∣ L.align := by
  refine pow2_dvd h.hostAlign h.align_pow2 ?_
  rw [align_eq h]; omega
theorem Valid.size_ok : L.size = L.hostSize ∨ L.hostAlign < L.align := by
  by_cases hl : L.hostAlign < L.align
  · exact Or.inr hl
  · left
    have hle : L.hostAlign ≤ L.align := Nat.le_of_dvd (pow2_pos h.align_pow2) h.hostAlign_dvd
    rw [size_eq, roundUp_dvd (pow2_pos h.align_pow2)]
    rw [show L.align = L.hostAlign by omega]; exact h.host
end Layout

namespace Inline
variable {A : Type} {E : Env} {L : Layout A}

/-- What `InlineArray::new` checks before it makes an array. -/
def Accepted (E : Env) (L : Layout A) : Prop := L.headerSize < L.hostSize ∧ (cap E L = 0 ∨ L.align % L.elemAlign = 0)
instance : Decidable (Accepted E L) := inferInstanceAs (Decidable (_ ∧ _))

/-- Offset of the length header. -/
def hdrOff (E : Env) (L : Layout A) : Nat := headerSkip E L * L.elemSize
/-- Offset of the first element. -/
def elemOff (L : Layout A) : Nat := elementSkip L * L.headerSize
/-- Offset of element `i`. -/
def slotOff (L : Layout A) (i : Nat) : Nat := elemOff L + i * L.elemSize

/-- The layout facts everything rests on. -/
structure Geo (E : Env) (L : Layout A) : Prop where
  hdr_in : hdrOff E L + L.headerSize ≤ L.hostSize
  hdr_al : ∀ {addr}, L.align ∣ addr → L.headerAlign ∣ addr + hdrOff E L
  el_in : 0 < cap E L → elemOff L + cap E L * L.elemSize ≤ L.hostSize
  el_al : 0 < cap E L → ∀ {addr i}, L.align ∣ addr → L.elemAlign ∣ addr + slotOff L i
  apart : L.elemSize ≠ 0 → hdrOff E L + L.headerSize ≤ elemOff L ∨ elemOff L + cap E L * L.elemSize ≤ hdrOff E L
  cap_lt : cap E L < E.W
  header_pos : 0 < L.headerSize
  skip_or : elementSkip L = 0 ∨ headerSkip E L = 0

theorem cap_mul (_h : L.headerSize < L.hostSize) : cap E L * L.elemSize ≤ L.hostSize - L.headerSize := by
  unfold cap capacity
  by_cases h0 : L.elemSize = 0
  · simp [h0]
  · rw [if_neg h0]; split
    · exact Nat.div_mul_le_self _ _
    · simp

theorem geo (hv : L.Valid E) (ha : Accepted E L) : Geo E L := by
  have hmul := cap_mul (E := E) ha.1
  have hea := pow2_pos hv.elemAlign
  have elal : ∀ {addr i}, L.align % L.elemAlign = 0 → L.align ∣ addr → L.elemAlign ∣ addr + slotOff L i := by
    intro addr i hd hd'
    refine Nat.dvd_add (Nat.dvd_trans (Nat.dvd_of_mod_eq_zero hd) hd') ?_
    unfold slotOff
    refine Nat.dvd_add ?_ (Nat.dvd_trans hv.elem (Nat.dvd_mul_left _ _))
    unfold elemOff elementSkip headerFirst
    by_cases hf : L.headerAlign ≥ L.elemAlign
    · simp only [hf, decide_true, if_true, Nat.one_mul]
      exact Nat.dvd_trans (pow2_dvd hv.elemAlign hv.headerAlign hf) hv.header
    · simp [hf]
  have caplt : cap E L < E.W := by
    have := hv.host_max
    unfold cap capacity
    split
    · omega
    · split
      · exact Nat.lt_of_le_of_lt (Nat.div_le_self _ _) (by omega)
      · omega
  have elal' : 0 < cap E L → ∀ {addr i}, L.align ∣ addr → L.elemAlign ∣ addr + slotOff L i := by
    intro hc addr i
    exact elal (ha.2.resolve_left (by omega))
  by_cases hf : L.headerAlign ≥ L.elemAlign
  · have e1 : elementSkip L = 1 := by simp [elementSkip, headerFirst, hf]
    have e2 : hdrOff E L = 0 := by simp [hdrOff, headerSkip, e1]
    have e3 : elemOff L = L.headerSize := by simp [elemOff, e1]
    have := ha.1
    refine ⟨by omega, ?_, fun _ => by omega, elal', fun _ => Or.inl (by omega), caplt, hv.header_pos, Or.inr (by simp [headerSkip, e1])⟩
    intro addr hd
    rw [e2]; exact Nat.dvd_trans hv.headerAlign_dvd hd
  · have e1 : elementSkip L = 0 := by simp [elementSkip, headerFirst, hf]
    have e2 : hdrOff E L = cap E L * L.elemSize := by simp [hdrOff, headerSkip, e1]
    have e3 : elemOff L = 0 := by simp [elemOff, e1]
    have := ha.1
    refine ⟨by omega, ?_, fun _ => by omega, elal', fun _ => Or.inr (by omega), caplt, hv.header_pos, Or.inl e1⟩
    intro addr hd
    rw [e2]
    refine Nat.dvd_add (Nat.dvd_trans hv.headerAlign_dvd hd) ?_
    exact Nat.dvd_trans (pow2_dvd hv.headerAlign hv.elemAlign (by omega)) (Nat.dvd_trans hv.elem (Nat.dvd_mul_left _ _))

/-! ### What an array holds -/

/-- The header holds the length `n`. -/
def Hdr (E : Env) (L : Layout A) (s : Inline A) (n : Nat) : Prop := ∀ k, k < L.headerSize → s.bytes (hdrOff E L + k) = .len n k
/-- Slot `i` holds the element `a`. -/
def Slot (L : Layout A) (s : Inline A) (i : Nat) (a : A) : Prop := ∀ k, k < L.elemSize → s.bytes (slotOff L i + k) = .elem a k

/-- The array stores the list `l`. -/
structure Rep (E : Env) (L : Layout A) (s : Inline A) (l : List A) : Prop where
  acc : Accepted E L
  addr : L.align ∣ s.addr
  le : l.length ≤ cap E L
  hdr : Hdr E L s l.length
  slots : ∀ i a, l[i]? = some a → Slot L s i a

theorem splice_in {b : Nat → Byte A} {off n j : Nat} {f : Nat → Byte A} (h : j < n) : splice b off n f (off + j) = f j := by
  unfold splice; rw [if_pos ⟨by omega, by omega⟩]; congr 1; omega
theorem splice_out {b : Nat → Byte A} {off n j : Nat} {f : Nat → Byte A} (h : j < off ∨ off + n ≤ j) : splice b off n f j = b j := by
  unfold splice; rw [if_neg (by omega)]

theorem slot_mono {i j : Nat} (h : i < j) : slotOff L i + L.elemSize ≤ slotOff L j := by
  unfold slotOff
  have : (i + 1) * L.elemSize ≤ j * L.elemSize := Nat.mul_le_mul_right _ h
  rw [Nat.add_mul] at this; omega
theorem slot_mono' {i j : Nat} (h : i ≤ j) : slotOff L i ≤ slotOff L j := by
  unfold slotOff
  have : i * L.elemSize ≤ j * L.elemSize := Nat.mul_le_mul_right _ h
  omega
theorem slot_add (i n : Nat) : slotOff L i + n * L.elemSize = slotOff L (i + n) := by
  unfold slotOff; rw [Nat.add_mul]; omega
theorem slot_zero : slotOff L 0 = elemOff L := by simp [slotOff]

section
variable (g : Geo E L)
include g
theorem Geo.slot_le {i : Nat} (h : i ≤ cap E L) (h0 : 0 < cap E L) : slotOff L i ≤ L.hostSize := by
  have h1 := slot_mono' (L := L) h
  have h2 := g.el_in h0
  have : slotOff L (cap E L) = elemOff L + cap E L * L.elemSize := rfl
  omega
theorem Geo.slot_in {i : Nat} (h : i < cap E L) : slotOff L i + L.elemSize ≤ L.hostSize := by
  have h1 := slot_mono (L := L) h
  have := g.slot_le (Nat.le_refl _) (by omega)
  omega
/-- Header bytes and the bytes of the slots up to the capacity are apart. -/
theorem Geo.apart' {i n k : Nat} (h : i + n ≤ cap E L) (hk : k < L.headerSize) :
    hdrOff E L + k < slotOff L i ∨ slotOff L i + n * L.elemSize ≤ hdrOff E L + k := by
  by_cases h0 : L.elemSize = 0
  · rw [h0]; omega
  · rw [slot_add]
    have h1 := slot_mono' (L := L) h
    have h2 := slot_mono' (L := L) (Nat.zero_le i)
    rw [slot_zero] at h2
    have : slotOff L (cap E L) = elemOff L + cap E L * L.elemSize := rfl
    rcases g.apart h0 with h | h <;> omega

theorem aligned_hdr {s : Inline A} (ha : L.align ∣ s.addr) : isAligned L s L.headerAlign (.at (hdrOff E L)) = true := by
  have := g.hdr_al ha
  simp only [isAligned, Layout.dataOffset_eq, Nat.add_zero, beq_iff_eq]
  exact Nat.mod_eq_zero_of_dvd this
theorem aligned_slot {s : Inline A} (ha : L.align ∣ s.addr) (hc : 0 < cap E L) (i : Nat) :
    isAligned L s L.elemAlign (.at (slotOff L i)) = true := by
  have := g.el_al hc (i := i) ha
  simp only [isAligned, Layout.dataOffset_eq, Nat.add_zero, beq_iff_eq]
  exact Nat.mod_eq_zero_of_dvd this

omit g in
theorem ptrAdd_at {σ : Type} {size off n : Nat} (h : off + n * size ≤ L.hostSize) (s : σ) :
    ptrAdd L size (.at off) n s = .ok (.at (off + n * size)) s := by
  unfold ptrAdd; simp only; rw [if_pos h]; rfl

theorem lenPtr_eq {s : Inline A} (ha : L.align ∣ s.addr) : lenPtr E L s = .ok (.at (hdrOff E L)) s := by
  have h1 : 0 + headerSkip E L * L.elemSize ≤ L.hostSize := by have := g.hdr_in; unfold hdrOff at this; omega
  have h2 := aligned_hdr g ha
  simp only [lenPtr, M.bind_run, ptrAdd_at h1, M.pure_run, Out.andThen_ok, M.get_run, Nat.zero_add]
  rw [show headerSkip E L * L.elemSize = hdrOff E L from rfl, debugAssert_ok h2]
  rfl

/-- The pointer `data()` returns. -/
def dptr (E : Env) (L : Layout A) : Ptr := if cap E L = 0 then .dangling else .at (elemOff L)

theorem dataPtr_eq {s : Inline A} (ha : L.align ∣ s.addr) : dataPtr E L s = .ok (dptr E L) s := by
  unfold dataPtr dptr
  by_cases h0 : cap E L = 0
  · simp [h0]
  · have h1 : 0 + elementSkip L * L.headerSize ≤ L.hostSize := by
      have := g.el_in (by omega); unfold elemOff at this; omega
    have h2 := aligned_slot g ha (by omega) 0
    simp only [slot_zero, elemOff] at h2
    rw [if_neg h0, if_neg h0]
    simp only [M.bind_run, ptrAdd_at h1, M.pure_run, Out.andThen_ok, M.get_run, Nat.zero_add]
    rw [debugAssert_ok h2]
    rfl

theorem ptrAt_eq {s : Inline A} (ha : L.align ∣ s.addr) {i : Nat} (hi : i < cap E L) : ptrAt E L i s = .ok (.at (slotOff L i)) s := by
  have h1 : elemOff L + i * L.elemSize ≤ L.hostSize := by have := g.slot_le (Nat.le_of_lt hi) (by omega); exact this
  have h0 : cap E L ≠ 0 := by omega
  simp only [ptrAt, M.bind_run, debugAssert_ok hi, Out.andThen_ok, dataPtr_eq g ha, dptr, h0, if_false, ptrAdd, h1, if_true, M.pure_run]
  rfl

theorem loadLen_eq {s : Inline A} (ha : L.align ∣ s.addr) {n : Nat} (hh : Hdr E L s n) : loadLen L (.at (hdrOff E L)) s = .ok n s := by
  have h1 := g.hdr_in
  have h2 := aligned_hdr g ha
  have hb : s.bytes (hdrOff E L) = .len n 0 := by have := hh 0 g.header_pos; simpa using this
  simp only [loadLen, h1, h2, and_self, if_true, hb]
  rw [if_pos]
  rw [List.all_eq_true]
  intro k hk
  rw [hh k (by simpa using hk)]
  simp

theorem storeLen_eq {s : Inline A} (ha : L.align ∣ s.addr) (n : Nat) :
    storeLen L (.at (hdrOff E L)) n s = .ok () { s with bytes := splice s.bytes (hdrOff E L) L.headerSize (.len n) } := by
  simp only [storeLen, aligned_hdr g ha, g.hdr_in, and_self, if_true]

theorem len_eq' {s : Inline A} (ha : L.align ∣ s.addr) {n : Nat} (hh : Hdr E L s n) : len E L s = .ok n s := by
  simp only [len, M.bind_run, lenPtr_eq g ha, Out.andThen_ok, loadLen_eq g ha hh]

/-- Writing the header: the new array. -/
def withLen (E : Env) (L : Layout A) (s : Inline A) (n : Nat) : Inline A := { s with bytes := splice s.bytes (hdrOff E L) L.headerSize (.len n) }

omit g in
@[simp] theorem withLen_addr (s : Inline A) (n : Nat) : (withLen E L s n).addr = s.addr := rfl
omit g in
theorem withLen_hdr (s : Inline A) (n : Nat) : Hdr E L (withLen E L s n) n := fun _ hk => splice_in hk
theorem withLen_slot {s : Inline A} {n i : Nat} {a : A} (hi : i < cap E L) (h : Slot L s i a) : Slot L (withLen E L s n) i a := by
  intro k hk
  rw [← h k hk]
  refine splice_out ?_
  have h1 := slot_mono (L := L) hi
  have h2 := slot_mono' (L := L) (Nat.zero_le i)
  rw [slot_zero] at h2
  have : slotOff L (cap E L) = elemOff L + cap E L * L.elemSize := rfl
  rcases g.apart (by omega) with h | h <;> omega

theorem setLen_eq {s : Inline A} (ha : L.align ∣ s.addr) (n : Nat) : setLen E L n s = .ok () (withLen E L s n) := by
  simp only [setLen, M.bind_run, lenPtr_eq g ha, Out.andThen_ok, storeLen_eq g ha, withLen]
theorem incLen_eq {s : Inline A} (ha : L.align ∣ s.addr) {n : Nat} (hh : Hdr E L s n) (hn : n + 1 < E.W) :
    incLen E L s = .ok () (withLen E L s (n + 1)) := by
  simp only [incLen, M.bind_run, lenPtr_eq g ha, Out.andThen_ok, loadLen_eq g ha hh, uadd_ok hn, storeLen_eq g ha, withLen]
theorem decLen_eq {s : Inline A} (ha : L.align ∣ s.addr) {n : Nat} (hh : Hdr E L s n) (hn : 1 ≤ n) :
    decLen E L s = .ok () (withLen E L s (n - 1)) := by
  simp only [decLen, M.bind_run, lenPtr_eq g ha, Out.andThen_ok, loadLen_eq g ha hh, usub_ok hn, storeLen_eq g ha, withLen]

/-- Writing slot `i`: the new array. -/
def withSlot (L : Layout A) (s : Inline A) (i : Nat) (v : A) : Inline A := { s with bytes := splice s.bytes (slotOff L i) L.elemSize (.elem v) }
omit g in
@[simp] theorem withSlot_addr (s : Inline A) (i : Nat) (v : A) : (withSlot L s i v).addr = s.addr := rfl
omit g in
theorem withSlot_same (s : Inline A) (i : Nat) (v : A) : Slot L (withSlot L s i v) i v := fun _ hk => splice_in hk
omit g in
theorem withSlot_other {s : Inline A} {i j : Nat} {v a : A} (hij : i ≠ j) (h : Slot L s j a) : Slot L (withSlot L s i v) j a := by
  intro k hk
  rw [← h k hk]
  refine splice_out ?_
  rcases Nat.lt_or_gt_of_ne hij with h | h
  · have := slot_mono (L := L) h; omega
  · have := slot_mono (L := L) h; omega
theorem withSlot_hdr {s : Inline A} {i n : Nat} {v : A} (hi : i < cap E L) (h : Hdr E L s n) : Hdr E L (withSlot L s i v) n := by
  intro k hk
  rw [← h k hk]
  refine splice_out ?_
  have := g.apart' (i := i) (n := 1) (by omega) hk
  omega

omit g in
theorem splice_zero {b : Nat → Byte A} {off : Nat} {f : Nat → Byte A} : splice b off 0 f = b := by
  funext j; unfold splice; rw [if_neg (by omega)]

theorem storeElem_eq {s : Inline A} (ha : L.align ∣ s.addr) {i : Nat} (hi : i < cap E L) (v : A) :
    storeElem L (.at (slotOff L i)) v s = .ok () (withSlot L s i v) := by
  have h1 := g.slot_in hi
  simp only [storeElem, aligned_slot g ha (show 0 < cap E L by omega), if_true, h1]
  by_cases h0 : L.elemSize = 0
  · rw [if_pos h0]; simp only [withSlot, h0, splice_zero]
  · rw [if_neg h0]; rfl
theorem writeAt_eq {s : Inline A} (ha : L.align ∣ s.addr) {i : Nat} (hi : i < cap E L) (v : A) :
    writeAt E L i v s = .ok () (withSlot L s i v) := by
  simp only [writeAt, M.bind_run, ptrAt_eq g ha hi, Out.andThen_ok, storeElem_eq g ha hi]

theorem loadElem_eq [DecidableEq A] (hv : L.Valid E) {s : Inline A} (ha : L.align ∣ s.addr) {i : Nat} (hi : i < cap E L) {a : A} (h : Slot L s i a) :
    loadElem L (.at (slotOff L i)) s = .ok a s := by
  have h1 := g.slot_in hi
  simp only [loadElem, aligned_slot g ha (show 0 < cap E L by omega), if_true, h1]
  by_cases h0 : L.elemSize = 0
  · rw [if_pos h0, hv.zst h0 a]
  · have hb := h 0 (by omega)
    rw [if_neg h0]
    rw [Nat.add_zero] at hb
    simp only [hb]
    rw [if_pos]
    rw [List.all_eq_true]
    intro k hk
    rw [h k (by simpa using hk)]
    simp
theorem readAt_eq [DecidableEq A] (hv : L.Valid E) {s : Inline A} (ha : L.align ∣ s.addr) {i : Nat} (hi : i < cap E L) {a : A} (h : Slot L s i a) :
    readAt E L i s = .ok a s := by
  simp only [readAt, M.bind_run, ptrAt_eq g ha hi, Out.andThen_ok, loadElem_eq g hv ha hi h]

theorem ptrAdd_slot {σ : Type} {i n : Nat} (h : i + n ≤ cap E L) (h0 : 0 < cap E L) (s : σ) :
    ptrAdd L L.elemSize (.at (slotOff L i)) n s = .ok (.at (slotOff L (i + n))) s := by
  have := g.slot_le h h0
  simp only [ptrAdd, slot_add, this, if_true, M.pure_run]

theorem spanOk_slot {s : Inline A} (ha : L.align ∣ s.addr) {i n : Nat} (h : i + n ≤ cap E L) (h0 : 0 < cap E L) :
    spanOk L s (.at (slotOff L i)) n = true := by
  have := g.slot_le h h0
  simp only [spanOk, aligned_slot g ha h0, slot_add, this, decide_true, Bool.and_self]

/-- `ptr::copy` of `n` slots from `i` to `j`: the new array. -/
def withCopy (L : Layout A) (src : Nat → Byte A) (i : Nat) (s : Inline A) (j n : Nat) : Inline A :=
  { s with bytes := splice s.bytes (slotOff L j) (n * L.elemSize) (fun k => src (slotOff L i + k)) }
omit g in
@[simp] theorem withCopy_addr (src : Nat → Byte A) (i : Nat) (s : Inline A) (j n : Nat) : (withCopy L src i s j n).addr = s.addr := rfl
theorem copyWithin_eq {s : Inline A} (ha : L.align ∣ s.addr) {i j n : Nat} (hi : i + n ≤ cap E L) (hj : j + n ≤ cap E L) (h0 : 0 < cap E L) :
    copyWithin L (.at (slotOff L i)) (.at (slotOff L j)) n s = .ok () (withCopy L s.bytes i s j n) := by
  simp only [copyWithin, spanOk_slot g ha hi h0, spanOk_slot g ha hj h0, and_self, if_true, copyBytes, withCopy]
theorem copyAcross_eq {s t : Inline A} (ha : L.align ∣ s.addr) (hb : L.align ∣ t.addr) {i j n : Nat} (hi : i + n ≤ cap E L) (hj : j + n ≤ cap E L)
    (h0 : 0 < cap E L) :
    copyAcross L (.at (slotOff L i)) (.at (slotOff L j)) n (s, t) = .ok () (s, withCopy L s.bytes i t j n) := by
  simp only [copyAcross, spanOk_slot g ha hi h0, spanOk_slot g hb hj h0, and_self, if_true, copyBytes, withCopy]
omit g in
theorem withCopy_in {src s : Inline A} {i j n m : Nat} {a : A} (hm : m < n) (h : Slot L src (i + m) a) :
    Slot L (withCopy L src.bytes i s j n) (j + m) a := by
  intro k hk
  rw [← h k hk]
  simp only [withCopy]
  have e1 : slotOff L (j + m) + k = slotOff L j + (m * L.elemSize + k) := by rw [← slot_add]; omega
  have e2 : slotOff L (i + m) + k = slotOff L i + (m * L.elemSize + k) := by rw [← slot_add]; omega
  rw [e1, e2]
  refine splice_in ?_
  have : (m + 1) * L.elemSize ≤ n * L.elemSize := Nat.mul_le_mul_right _ hm
  rw [Nat.add_mul] at this; omega
omit g in
theorem withCopy_out {src : Nat → Byte A} {s : Inline A} {i j n m : Nat} {a : A} (hm : m < j ∨ j + n ≤ m) (h : Slot L s m a) :
    Slot L (withCopy L src i s j n) m a := by
  intro k hk
  rw [← h k hk]
  simp only [withCopy]
  refine splice_out ?_
  rw [slot_add]
  rcases hm with hm | hm
  · have := slot_mono (L := L) hm; omega
  · have := slot_mono' (L := L) hm; omega
theorem withCopy_hdr {src : Nat → Byte A} {s : Inline A} {i j n m : Nat} (hj : j + n ≤ cap E L) (h : Hdr E L s m) :
    Hdr E L (withCopy L src i s j n) m := by
  intro k hk
  rw [← h k hk]
  simp only [withCopy]
  refine splice_out ?_
  have := g.apart' hj hk
  omega

theorem loadMany_eq [DecidableEq A] (hv : L.Valid E) {s : Inline A} (ha : L.align ∣ s.addr) (l : List A) {i : Nat} (hi : i + l.length ≤ cap E L)
    (h : ∀ j a, l[j]? = some a → Slot L s (i + j) a) : loadMany L (.at (slotOff L i)) l.length s = .ok l s := by
  induction l generalizing i with
  | nil => rfl
  | cons a r ih =>
    simp only [List.length_cons] at hi
    have h0 := h 0 a (by simp)
    rw [Nat.add_zero] at h0
    have ih' := ih (i := i + 1) (by omega) (fun j b hj => by
      have := h (j + 1) b (by simpa using hj); rwa [show i + (j + 1) = i + 1 + j by omega] at this)
    simp only [List.length_cons, loadMany, M.bind_run, loadElem_eq g hv ha (show i < cap E L by omega) h0, Out.andThen_ok,
      ptrAdd_slot g (show i + 1 ≤ cap E L by omega) (by omega), ih', M.pure_run]
end

/-! ### `Rep` -/
section
variable [DecidableEq A] (hv : L.Valid E) {s : Inline A} {l : List A} (h : Rep E L s l)
include hv h

omit [DecidableEq A] in
theorem Rep.geo : Geo E L := Inline.geo hv h.acc
omit [DecidableEq A] in
theorem len_eq : len E L s = .ok l.length s := len_eq' (h.geo hv) h.addr h.hdr
omit [DecidableEq A] in
theorem isEmpty_eq : isEmpty E L s = .ok l.isEmpty s := by
  simp only [isEmpty, M.bind_run, len_eq hv h, Out.andThen_ok, M.pure_run]
  cases l <;> simp
omit [DecidableEq A] in
theorem isFull_eq : isFull E L s = .ok (decide (l.length = cap E L)) s := by
  have := h.le
  simp only [isFull, M.bind_run, len_eq hv h, Out.andThen_ok, M.pure_run]
  congr 1
  by_cases e : l.length = cap E L
  · simp [e]
  · simp [e]; omega
theorem slice_eq : slice L (dptr E L) l.length s = .ok l s := by
  have g := h.geo hv
  have hle := h.le
  unfold dptr
  by_cases h0 : cap E L = 0
  · have : l = [] := List.length_eq_zero_iff.1 (by omega)
    subst this
    simp [slice, h0, spanOk, isAligned, loadMany]
  · rw [if_neg h0]
    have h1 := loadMany_eq g hv h.addr l (i := 0) (by omega) (fun j a hj => by rw [Nat.zero_add]; exact h.slots j a hj)
    have h2 := spanOk_slot g h.addr (i := 0) (n := l.length) (by omega) (by omega)
    rw [slot_zero] at h1 h2
    simp only [slice, M.bind_run, M.get_run, Out.andThen_ok, h2, if_true, h1]
theorem items_eq : items E L s = .ok l s := by
  simp only [items, M.bind_run, dataPtr_eq (h.geo hv) h.addr, Out.andThen_ok, len_eq hv h, slice_eq hv h]
theorem index_ref (i : Nat) : Ref (Rep E L) (index E L i s) (Spec.index i l) := by
  unfold index Spec.index
  simp only [M.bind_run, items_eq hv h, Out.andThen_ok]
  cases l[i]? with
  | some a => exact ⟨_, rfl, h⟩
  | none => exact ⟨_, rfl, h⟩
theorem get_eq (i : Nat) : get E L i s = .ok l[i]? s := by
  simp only [get, M.bind_run, items_eq hv h, Out.andThen_ok, M.pure_run]

omit [DecidableEq A] in
theorem push_ref (v : A) : Ref (Rep E L) (push E L v s) (Spec.pushBack (cap E L) v l) := by
  have g := h.geo hv
  have hle := h.le
  unfold push Spec.pushBack
  simp only [M.bind_run, isFull_eq hv h, Out.andThen_ok, M.panicIf_run, decide_eq_true_eq]
  by_cases hf : l.length = cap E L
  · rw [if_pos hf, if_neg (by omega)]; exact ⟨_, rfl, h⟩
  · have hl : l.length < cap E L := by omega
    have hW := g.cap_lt
    rw [if_neg hf, if_pos hl]
    have hh := withSlot_hdr g (v := v) hl h.hdr
    simp only [Out.andThen_ok, len_eq hv h, writeAt_eq g h.addr hl,
      incLen_eq g (s := withSlot L s l.length v) h.addr hh (show l.length + 1 < E.W by omega)]
    refine ⟨_, rfl, h.acc, h.addr, by simp; omega, by simpa using withLen_hdr _ _, ?_⟩
    intro i a hi
    have hi' : i < (l ++ [v]).length := (List.getElem?_eq_some_iff.1 hi).1
    simp at hi'
    refine withLen_slot g (by omega) ?_
    by_cases e : i = l.length
    · subst e
      rw [List.getElem?_concat_length] at hi
      cases hi
      exact withSlot_same _ _ _
    · rw [List.getElem?_append_left (by omega)] at hi
      exact withSlot_other (by omega) (h.slots i a hi)

theorem pop_ref : Ref (Rep E L) (pop E L s) (Spec.popBack? l) := by
  have g := h.geo hv
  have hle := h.le
  unfold pop Spec.popBack?
  simp only [M.bind_run, isEmpty_eq hv h, Out.andThen_ok]
  cases hl : l with
  | nil => subst hl; exact ⟨_, rfl, h⟩
  | cons x r =>
    have hne : l ≠ [] := by rw [hl]; simp
    rw [← hl]
    have hlen : 1 ≤ l.length := by rw [hl]; simp
    have hemp : l.isEmpty = false := by rw [hl]; rfl
    simp only [hemp, Bool.false_eq_true, if_false]
    have hs : Slot L s (l.length - 1) (l.getLast hne) := h.slots _ _ (by
      rw [← List.getLast?_eq_getElem?, List.getLast?_eq_some_getLast hne])
    have hs' : Slot L (withLen E L s (l.length - 1)) (l.length - 1) (l.getLast hne) := withLen_slot g (by omega) hs
    simp only [M.bind_run, decLen_eq g h.addr h.hdr hlen, Out.andThen_ok,
      len_eq' g (s := withLen E L s (l.length - 1)) h.addr (withLen_hdr s _),
      readAt_eq g hv (s := withLen E L s (l.length - 1)) h.addr (show l.length - 1 < cap E L by omega) hs', M.pure_run]
    refine ⟨l.dropLast, ?_, h.acc, h.addr, by simp; omega, by simpa using withLen_hdr _ _, ?_⟩
    · rw [List.getLast?_eq_some_getLast hne]
    · intro i a hi
      have hi' : i < l.dropLast.length := (List.getElem?_eq_some_iff.1 hi).1
      simp at hi'
      rw [List.getElem?_dropLast, if_pos (by omega)] at hi
      exact withLen_slot g (by omega) (h.slots i a hi)

omit [DecidableEq A] in
theorem insert_ref (i : Nat) (v : A) : Ref (Rep E L) (insert E L i v s) (Spec.insert (cap E L) i v l) := by
  have g := h.geo hv
  have hle := h.le
  have hW := g.cap_lt
  unfold insert Spec.insert
  simp only [M.bind_run, isFull_eq hv h, Out.andThen_ok, M.panicIf_run, decide_eq_true_eq]
  by_cases hf : l.length = cap E L
  · rw [if_pos hf, if_neg (by omega)]; exact ⟨_, rfl, h⟩
  · rw [if_neg hf]
    simp only [Out.andThen_ok]
    by_cases hi : i > l.length
    · simp only [len_eq hv h, Out.andThen_ok, hi, if_true]
      rw [if_neg (by omega)]; exact ⟨_, rfl, h⟩
    · have hl : l.length < cap E L := by omega
      simp only [len_eq hv h, Out.andThen_ok, hi, if_false]
      rw [if_pos ⟨hl, by omega⟩]
      have h1 : i < cap E L := by omega
      have hh1 : Hdr E L (withCopy L s.bytes i s (i + 1) (l.length - i)) l.length := withCopy_hdr g (by omega) h.hdr
      have hh2 : Hdr E L (withSlot L (withCopy L s.bytes i s (i + 1) (l.length - i)) i v) l.length := withSlot_hdr g h1 hh1
      simp only [ptrAt_eq g h.addr h1, Out.andThen_ok, ptrAdd_slot g (show i + 1 ≤ cap E L by omega) (by omega), len_eq hv h,
        usub_ok (show i ≤ l.length by omega), copyWithin_eq g h.addr (show i + (l.length - i) ≤ cap E L by omega)
          (show i + 1 + (l.length - i) ≤ cap E L by omega) (by omega),
        storeElem_eq g (s := withCopy L s.bytes i s (i + 1) (l.length - i)) h.addr h1,
        incLen_eq g (s := withSlot L (withCopy L s.bytes i s (i + 1) (l.length - i)) i v) h.addr hh2 (show l.length + 1 < E.W by omega)]
      refine ⟨_, rfl, h.acc, h.addr, by simp; omega, ?_, ?_⟩
      · have : (l.take i ++ v :: l.drop i).length = l.length + 1 := by simp; omega
        rw [this]; exact withLen_hdr _ _
      · intro j a hj
        have hj' := (List.getElem?_eq_some_iff.1 hj).1
        simp at hj'
        refine withLen_slot g (by omega) ?_
        rcases Nat.lt_trichotomy j i with hlt | rfl | hgt
        · refine withSlot_other (by omega) (withCopy_out (by omega) (h.slots j a ?_))
          rw [List.getElem?_append_left (by simp; omega), List.getElem?_take, if_pos hlt] at hj
          exact hj
        · rw [List.getElem?_append_right (by rw [List.length_take]; omega), List.length_take, Nat.min_eq_left (by omega), Nat.sub_self] at hj
          cases hj
          exact withSlot_same _ _ _
        · refine withSlot_other (by omega) ?_
          rw [show j = i + 1 + (j - i - 1) by omega]
          refine withCopy_in (by omega) (h.slots _ a ?_)
          rw [List.getElem?_append_right (by simp; omega), List.length_take, Nat.min_eq_left (by omega),
            show j - i = (j - i - 1) + 1 by omega, List.getElem?_cons_succ, List.getElem?_drop] at hj
          exact hj

theorem remove_ref (i : Nat) : Ref (Rep E L) (remove E L i s) (Spec.remove? i l) := by
  have g := h.geo hv
  have hle := h.le
  unfold remove Spec.remove?
  simp only [M.bind_run, len_eq hv h, Out.andThen_ok]
  by_cases hi : i ≥ l.length
  · simp only [hi, if_true, M.pure_run]
    refine ⟨l, ?_, h⟩
    rw [List.getElem?_eq_none hi, List.take_of_length_le hi, List.drop_eq_nil_of_le (by omega), List.append_nil]
  · have h1 : i < cap E L := by omega
    have hil : i < l.length := by omega
    simp only [hi, if_false]
    have ha : l[i]? = some l[i] := List.getElem?_eq_getElem hil
    simp only [M.bind_run, ptrAt_eq g h.addr h1, Out.andThen_ok, loadElem_eq g hv h.addr h1 (h.slots i _ ha),
      decLen_eq g h.addr h.hdr (show 1 ≤ l.length by omega), ptrAdd_slot g (show i + 1 ≤ cap E L by omega) (by omega),
      len_eq' g (s := withLen E L s (l.length - 1)) h.addr (withLen_hdr s _), usub_ok (show i ≤ l.length - 1 by omega),
      copyWithin_eq g (s := withLen E L s (l.length - 1)) h.addr (show i + 1 + (l.length - 1 - i) ≤ cap E L by omega)
        (show i + (l.length - 1 - i) ≤ cap E L by omega) (by omega), M.pure_run]
    refine ⟨_, by rw [ha], h.acc, h.addr, by simp; omega, ?_, ?_⟩
    · have : (l.take i ++ l.drop (i + 1)).length = l.length - 1 := by simp; omega
      rw [this]; exact withCopy_hdr g (by omega) (withLen_hdr _ _)
    · intro j a hj
      have hj' := (List.getElem?_eq_some_iff.1 hj).1
      simp at hj'
      by_cases hlt : j < i
      · rw [List.getElem?_append_left (by simp; omega), List.getElem?_take, if_pos hlt] at hj
        exact withCopy_out (by omega) (withLen_slot g (by omega) (h.slots j a hj))
      · rw [List.getElem?_append_right (by simp; omega), List.length_take, Nat.min_eq_left (by omega), List.getElem?_drop] at hj
        have e : j = i + (j - i) := by omega
        rw [e]
        exact withCopy_in (by omega) (withLen_slot g (by omega) (h.slots _ a hj))
end

end Inline
end Verif
