import Verif.Lemmas.Bits
import Verif.Spec.Toy
/-
Properties C01, C02, C03, C07, C08, C47: pure functions.
-/
namespace Sanctum

/-! ### C01 -/

/-- C01. A (base, mask) pair is accepted exactly when `mask = 2^k - 1` and `base` is a multiple of `2^k`;
then `base | mask` is the last address of the range. -/
theorem C01_range_exact (base mask : W) :
    (isValidRange base mask = true ↔ ∃ k, k ≤ 64 ∧ mask.toNat = 2 ^ k - 1 ∧ 2 ^ k ∣ base.toNat) ∧
    (isValidRange base mask = true →
      (base ||| mask).toNat = base.toNat + mask.toNat ∧
      ∀ a : W, ((∃ x : W, x.toNat ≤ mask.toNat ∧ a = base + x) ↔
        base.toNat ≤ a.toNat ∧ a.toNat ≤ (base ||| mask).toNat)) := by
  have hiff : isValidRange base mask = true ↔ ∃ k, k ≤ 64 ∧ mask.toNat = 2 ^ k - 1 ∧ 2 ^ k ∣ base.toNat := by
    rw [isValidRange, Bool.and_eq_true, isValidRangeMask_iff]
    constructor
    · rintro ⟨h1, k, hk, h2⟩
      exact ⟨k, hk, h2, (isAlignedToMask_iff base mask h2).1 h1⟩
    · rintro ⟨k, hk, h2, h1⟩
      exact ⟨(isAlignedToMask_iff base mask h2).2 h1, k, hk, h2⟩
  refine ⟨hiff, fun h => ?_⟩
  obtain ⟨k, _, h2, h3⟩ := hiff.1 h
  have hor := or_mask_toNat base mask h2 h3
  have hlt := (base ||| mask).isLt
  refine ⟨hor, fun a => ⟨?_, ?_⟩⟩
  · rintro ⟨x, hx, rfl⟩
    rw [BitVec.toNat_add, hor]; omega
  · rintro ⟨h4, h5⟩
    refine ⟨a - base, ?_, ?_⟩
    · rw [BitVec.toNat_sub]; omega
    · rw [BitVec.add_comm, BitVec.sub_add_cancel]

example : isValidRange 0x3000 0xfff = true := by decide
example : isValidRange 0x3000 0x1fff = false := by decide

/-! ### C02 -/

/-- The full C02 for sizes: the reported number of pages is the least that holds the memory. -/
def C02_statement : Prop := ∀ n : W, ∀ p : Nat, (pagesNeededFor n).toNat ≤ p ↔ n.toNat ≤ 4096 * p

/-- C02 is false near the top of the address space, where the addition wraps. -/
theorem C02_statement_false : ¬ C02_statement := by
  intro h
  have := (h (-1) 0).1 (by decide)
  revert this; decide

/-- C02, for every size that does not wrap the computation. -/
theorem C02_pages_least_partial (n : W) (h : n.toNat ≤ 2 ^ 64 - 4096) (p : Nat) :
    (pagesNeededFor n).toNat ≤ p ↔ n.toNat ≤ 4096 * p := by
  rw [pagesNeededFor_toNat n h]; omega

example : (0x12345 : W).toNat ≤ 2 ^ 64 - 4096 := by decide

/-- Number of bytes of an enclave's metadata: the record, the region bitmap (one bit per region, in
words) and the mailboxes (src/monitor/metadata_inl.h:241-252). -/
def enclaveMetadataBytes (g : Cfg) (mailboxes : Nat) : Nat := 304 + 8 * g.bitmapWords.toNat + 304 * mailboxes

/-- The full C02 for enclaves. -/
def C02_enclave_statement : Prop := ∀ (g : Cfg) (n : W),
  ∀ p : Nat, (enclaveInfoPages g n).toNat ≤ p ↔ enclaveMetadataBytes g n.toNat ≤ 4096 * p

/-- It is false: for 2^60 mailboxes the size computation wraps around to almost nothing. -/
theorem C02_enclave_statement_false : ¬ C02_enclave_statement := by
  intro h
  have := (h (booted toyPlatform).1 0x1000000000000000 1).1 (by set_option maxRecDepth 100000 in decide +kernel)
  revert this
  unfold enclaveMetadataBytes
  have : (0x1000000000000000 : W).toNat = 1152921504606846976 := rfl
  omega

theorem enclaveInfoTotal_toNat (g : Cfg) (n : W) (h : enclaveMetadataBytes g n.toNat < 2 ^ 64) :
    (enclaveInfoTotal g n).toNat = enclaveMetadataBytes g n.toNat := by
  unfold enclaveMetadataBytes at *
  simp only [enclaveInfoTotal, enclaveMailbox, enclaveMailboxes, enclaveRegionBitmap, enclaveInfoSize, mailboxSize,
    BitVec.toNat_add, BitVec.toNat_mul, show (304 : W).toNat = 304 from rfl, show (8 : W).toNat = 8 from rfl,
    show (0 : W).toNat = 0 from rfl]
  omega

/-- C02 for `enclave_metadata_pages`, for every mailbox count whose metadata is smaller than the address
space. -/
theorem C02_enclave_pages_partial (g : Cfg) (n : W) (h : enclaveMetadataBytes g n.toNat ≤ 2 ^ 64 - 4096) (p : Nat) :
    (enclaveInfoPages g n).toNat ≤ p ↔ enclaveMetadataBytes g n.toNat ≤ 4096 * p := by
  have ht := enclaveInfoTotal_toNat g n (by omega)
  rw [enclaveInfoPages, C02_pages_least_partial _ (by omega), ht]

example : enclaveMetadataBytes (booted toyPlatform).1 (50 : W).toNat ≤ 2 ^ 64 - 4096 ∧
    (enclaveInfoPages (booted toyPlatform).1 50).toNat = 4 := by
  set_option maxRecDepth 100000 in decide +kernel

/-- `thread_metadata_pages()` is enough for a thread record, and minimal. -/
theorem C02_thread_pages (p : Nat) : threadMetadataPages.toNat ≤ p ↔ threadInfoSize.toNat ≤ 4096 * p := by
  have h1 : threadMetadataPages.toNat = 1 := by decide
  have h2 : threadInfoSize.toNat = 552 := by decide
  omega

/-! ### C03 -/

/-- C03, first half: `address_bits_for(n)` is the least `b` with `n <= 2^b`. -/
theorem C03_address_bits_least (n : W) (h : 1 ≤ n.toNat) (b : Nat) : (addressBitsFor n).toNat ≤ b ↔ n.toNat ≤ 2 ^ b :=
  addressBitsFor_le_iff n h b

/-- The full second half: `ceil_power_of_two(n)` is defined and is the least power of two `>= n`. -/
def C03_statement : Prop := ∀ n : W, 1 ≤ n.toNat → n.toNat ≤ 2 ^ 63 →
  ∃ v b, ceilPowerOfTwo n = some v ∧ v.toNat = 2 ^ b ∧ n.toNat ≤ 2 ^ b ∧ ∀ b', n.toNat ≤ 2 ^ b' → b ≤ b'

/-- It is false: the shift is done in `int`, hence undefined above `2^30`. -/
theorem C03_statement_false : ¬ C03_statement := by
  intro h
  obtain ⟨v, b, h1, _⟩ := h 0x80000000 (by decide) (by decide)
  have : ceilPowerOfTwo 0x80000000 = none := by decide
  rw [this] at h1; cases h1

/-- C03, second half, up to `2^30`, and that beyond it the behaviour is always undefined. -/
theorem C03_ceil_power_of_two_partial (n : W) (h : 1 ≤ n.toNat) :
    (n.toNat ≤ 2 ^ 30 → ∃ v b, ceilPowerOfTwo n = some v ∧ v.toNat = 2 ^ b ∧ n.toNat ≤ 2 ^ b ∧
      ∀ b', n.toNat ≤ 2 ^ b' → b ≤ b') ∧
    (2 ^ 30 < n.toNat → ceilPowerOfTwo n = none) := by
  have hle := addressBitsFor_le_iff n h
  refine ⟨fun hn => ?_, fun hn => ?_⟩
  · have h30 := (hle 30).2 hn
    refine ⟨BitVec.ofNat 64 (2 ^ (addressBitsFor n).toNat), (addressBitsFor n).toNat, ?_, ?_, (hle _).1 (Nat.le_refl _),
      fun b' hb => (hle b').2 hb⟩
    · rw [ceilPowerOfTwo, intShl1, if_pos (by omega)]
    · rw [BitVec.toNat_ofNat, Nat.mod_eq_of_lt]
      exact Nat.pow_lt_pow_right (by decide) (by omega)
  · rw [ceilPowerOfTwo, intShl1, if_neg]
    intro hlt
    have := (hle 30).1 (by omega)
    omega

example : 1 ≤ (0x12345 : W).toNat ∧ (0x12345 : W).toNat ≤ 2 ^ 30 := by decide

/-- C03: `is_power_of_two(n)` holds exactly of the powers of two. -/
theorem C03_is_power_of_two (n : W) : isPowerOfTwo n = true ↔ ∃ k, n.toNat = 2 ^ k := by
  rw [isPowerOfTwo, Bool.and_eq_true, decide_eq_true_eq, gt_iff_lt, W.lt_iff, show (0 : W).toNat = 0 from rfl, isValidRangeMask_iff]
  have hn := n.isLt
  constructor
  · rintro ⟨h1, k, hk, h2⟩
    refine ⟨k, ?_⟩
    rw [BitVec.toNat_sub, show (1 : W).toNat = 1 from rfl] at h2
    have := Nat.two_pow_pos k
    omega
  · rintro ⟨k, h⟩
    have := Nat.two_pow_pos k
    refine ⟨by omega, k, ?_, ?_⟩
    · rcases Nat.lt_or_ge 64 k with hk | hk
      · have := Nat.pow_lt_pow_right (show 1 < 2 by decide) hk
        omega
      · exact hk
    · rw [BitVec.toNat_sub, show (1 : W).toNat = 1 from rfl]
      omega

/-! ### C07 -/

/-- Byte `i` (0 = least significant) of a 32-bit value. -/
def byteOf (v : W32) (i : Nat) : BitVec 8 := v.extractLsb' (8 * i) 8

/-- C07. The conversion reverses the four bytes. -/
theorem C07_byte_reversal (v : W32) (i : Nat) (h : i < 4) : byteOf (toBigEndian v) i = byteOf v (3 - i) := by
  have : i = 0 ∨ i = 1 ∨ i = 2 ∨ i = 3 := by omega
  rcases this with rfl | rfl | rfl | rfl <;>
  · apply BitVec.eq_of_getLsbD_eq
    intro j hj
    have : j = 0 ∨ j = 1 ∨ j = 2 ∨ j = 3 ∨ j = 4 ∨ j = 5 ∨ j = 6 ∨ j = 7 := by omega
    rcases this with rfl | rfl | rfl | rfl | rfl | rfl | rfl | rfl <;>
      simp [byteOf, toBigEndian, reverseBytes]

/-- C07. Doing it twice is the identity. -/
theorem C07_involutive (v : W32) : toBigEndian (toBigEndian v) = v := by
  have hb : ∀ x y : W32, (∀ i, i < 4 → byteOf x i = byteOf y i) → x = y := by
    intro x y hxy
    apply BitVec.eq_of_getLsbD_eq
    intro j hj
    have := congrArg (fun b : BitVec 8 => b.getLsbD (j % 8)) (hxy (j / 8) (by omega))
    simpa [byteOf, show j % 8 < 8 by omega, show 8 * (j / 8) + j % 8 = j by omega] using this
  apply hb
  intro i hi
  rw [C07_byte_reversal _ i hi, C07_byte_reversal _ (3 - i) (by omega), show 3 - (3 - i) = i by omega]

example : toBigEndian 0x01020304 = 0x04030201 := by decide

/-! ### C08 -/

/-- C08. Type and ID are recovered, the packing is injective, only (null, empty) packs to 0. -/
theorem C08_pack_lossless (e t : W) (he : e.toNat % 4096 = 0) (ht : t.toNat < 4) :
    (metadataPageInfo e t).toNat = e.toNat + t.toNat ∧
    metadataPageInfoType (metadataPageInfo e t) = t ∧
    metadataPageInfo e t &&& ~~~ metadataPageTypeMask = e ∧
    (∀ e' t' : W, e'.toNat % 4096 = 0 → t'.toNat < 4 → metadataPageInfo e' t' = metadataPageInfo e t → e' = e ∧ t' = t) ∧
    (metadataPageInfo e t = 0 ↔ e = 0 ∧ t = 0) := by
  have key : ∀ x y : W, x.toNat % 4096 = 0 → y.toNat < 4 → (metadataPageInfo x y).toNat = x.toNat + y.toNat := by
    intro x y hx hy
    have hx' : x.toNat = 2 ^ 2 * (x.toNat / 4) := by omega
    rw [metadataPageInfo, BitVec.toNat_or, hx', ← Nat.two_pow_add_eq_or_of_lt (by omega)]
  have k := key e t he ht
  have htype : metadataPageInfoType (metadataPageInfo e t) = t := by
    rw [W.eq_iff, metadataPageInfoType, and_mask_toNat _ _ (k := 2) rfl, k]; omega
  refine ⟨k, htype, ?_, ?_, ?_⟩
  · have hsub : metadataPageInfo e t &&& ~~~ metadataPageTypeMask =
        metadataPageInfo e t - (metadataPageInfo e t &&& metadataPageTypeMask) := by
      generalize metadataPageInfo e t = z
      have hadd : (z &&& ~~~ metadataPageTypeMask) + (z &&& metadataPageTypeMask) = z := by
        rw [BitVec.add_eq_or_of_and_eq_zero]
        · rw [← BitVec.and_or_distrib_left]
          have : ~~~ metadataPageTypeMask ||| metadataPageTypeMask = BitVec.allOnes 64 := by decide
          rw [this, BitVec.and_allOnes]
        · apply BitVec.eq_of_getLsbD_eq
          intro i hi
          simp only [BitVec.getLsbD_and, BitVec.getLsbD_not]
          cases metadataPageTypeMask.getLsbD i <;> simp
      exact (BitVec.eq_sub_iff_add_eq).2 hadd
    rw [hsub]
    have : metadataPageInfo e t &&& metadataPageTypeMask = t := htype
    rw [this, W.eq_iff, BitVec.toNat_sub, k]
    have := e.isLt
    have := t.isLt
    omega
  · intro e' t' he' ht' heq
    have k' := key e' t' he' ht'
    rw [heq, k] at k'
    constructor <;> rw [W.eq_iff] <;> omega
  · constructor
    · intro h0
      rw [h0] at k
      simp only [show (0 : W).toNat = 0 from rfl] at k
      constructor <;> rw [W.eq_iff] <;> simp <;> omega
    · rintro ⟨rfl, rfl⟩; rfl

example : (0x9000 : W).toNat % 4096 = 0 ∧ threadPageType.toNat < 4 := by decide

/-! ### C47 -/

/-- The result codes, in the order of src/monitor/public/api.h:28-78. -/
def resultCodes : List W := [monitorOk, monitorInvalidValue, monitorInvalidState, monitorConcurrentCall, monitorAsyncExit,
  monitorAccessDenied, monitorUnsupported]

/-- The region state codes, in the order of src/monitor/public/api.h:223-229. -/
def stateCodes : List W := [stateInvalid, stateFree, stateBlocked, stateLocked, stateOwned]

/-- The full C47. -/
def C47_statement : Prop := resultCodes.Nodup ∧ stateCodes.Nodup

/-- It is false: `monitor_async_exit` and `monitor_access_denied` are the same number. -/
theorem C47_statement_false : ¬ C47_statement := by unfold C47_statement; decide

/-- C47, with the single pair of colliding codes identified. -/
theorem C47_codes_partial : stateCodes.Nodup ∧ (resultCodes.eraseIdx 4).Nodup ∧ (resultCodes.eraseIdx 5).Nodup ∧
    monitorAsyncExit = monitorAccessDenied := by decide

end Sanctum
