import Verif.Lemmas.Loops
import Verif.Model.Bare
import Verif.Model.Enclaves
import Verif.Spec.Toy
/-
Properties C55-C59: physical memory, bulk operations, pointers, atomics of the bare-metal library.
-/
namespace Sanctum
open Machine

/-! ### Numbers and bytes -/

theorem leNat_lt (f : Nat → BitVec 8) (n : Nat) : ∀ a, leNat f a n < 256 ^ n := by
  induction n with
  | zero => intro a; simp [leNat]
  | succ n ih =>
      intro a
      have h1 := ih (a + 1)
      have h2 := (f a).isLt
      rw [leNat, Nat.pow_succ]
      omega

theorem leNat_digit (f : Nat → BitVec 8) (n : Nat) : ∀ a i, i < n → leNat f a n / 256 ^ i % 256 = (f (a + i)).toNat := by
  induction n with
  | zero => intro a i h; omega
  | succ n ih =>
      intro a i h
      have h2 := (f a).isLt
      rw [leNat]
      cases i with
      | zero => simp only [Nat.pow_zero, Nat.div_one, Nat.add_zero]; omega
      | succ i =>
          rw [Nat.pow_succ, Nat.mul_comm (256 ^ i), ← Nat.div_div_eq_div_mul, show ((f a).toNat + 256 * leNat f (a + 1) n) / 256 = leNat f (a + 1) n by omega,
            ih _ _ (by omega), show a + 1 + i = a + (i + 1) by omega]

theorem two_pow_8 (n : Nat) : 2 ^ (8 * n) = 256 ^ n := by rw [Nat.pow_mul]

theorem extract_digit {w : Nat} (v : BitVec w) (i : Nat) : (v.extractLsb' (8 * i) 8).toNat = v.toNat / 256 ^ i % 256 := by
  rw [BitVec.extractLsb'_toNat, Nat.shiftRight_eq_div_pow, two_pow_8]

theorem leNat_byte (f : Nat → BitVec 8) (n a i : Nat) (h : i < n) : (BitVec.ofNat (8 * n) (leNat f a n)).extractLsb' (8 * i) 8 = f (a + i) := by
  apply BitVec.eq_of_toNat_eq
  rw [extract_digit, BitVec.toNat_ofNat, two_pow_8, Nat.mod_eq_of_lt (leNat_lt f n a), leNat_digit f n a i h]

theorem digits_ext (n : Nat) : ∀ x y : Nat, x < 256 ^ n → y < 256 ^ n → (∀ i, i < n → x / 256 ^ i % 256 = y / 256 ^ i % 256) → x = y := by
  induction n with
  | zero => intro x y h1 h2 _; simp only [Nat.pow_zero] at h1 h2; omega
  | succ n ih =>
      intro x y h1 h2 h
      rw [Nat.pow_succ] at h1 h2
      have h0 := h 0 (by omega)
      simp only [Nat.pow_zero, Nat.div_one] at h0
      have := ih (x / 256) (y / 256) (by omega) (by omega) (fun i hi => by
        have := h (i + 1) (by omega)
        rwa [Nat.pow_succ, Nat.mul_comm (256 ^ i), ← Nat.div_div_eq_div_mul, ← Nat.div_div_eq_div_mul] at this)
      omega

theorem bytes_ext {n : Nat} {v w : BitVec (8 * n)} (h : ∀ i, i < n → v.extractLsb' (8 * i) 8 = w.extractLsb' (8 * i) 8) : v = w := by
  apply BitVec.eq_of_toNat_eq
  refine digits_ext n _ _ ?_ ?_ ?_
  · rw [← two_pow_8]; exact v.isLt
  · rw [← two_pow_8]; exact w.isLt
  · intro i hi
    rw [← extract_digit, ← extract_digit, h i hi]

/-! ### C55 -/

/-- The access lies in the physical memory. -/
def InBuf (b : PhysBuf) (a : W) (len : Nat) : Prop := a.toNat + len ≤ b.size.toNat

theorem assert_bound {b : PhysBuf} {a : W} {sz : Nat} (h : a.toNat + sz < 2 ^ 64) :
    decide (a + BitVec.ofNat 64 sz ≤ b.size) = decide (a.toNat + sz ≤ b.size.toNat) := by
  rw [decide_eq_decide, BitVec.le_def, BitVec.toNat_add, BitVec.toNat_ofNat, Nat.add_mod_mod, Nat.mod_eq_of_lt h]

theorem refGet_in {sz : Nat} {b : PhysBuf} {a : W} (h : InBuf b a sz) : refGet sz b a = .ok (BitVec.ofNat (8 * sz) (leNat b.byte a.toNat sz)) := by
  unfold InBuf at h
  have := b.size.isLt
  have : refGet sz b a = Out.bind (Out.assert (decide (a + BitVec.ofNat 64 sz ≤ b.size))) fun _ =>
    if a.toNat + sz ≤ b.size.toNat then .ok (BitVec.ofNat (8 * sz) (leNat b.byte a.toNat sz)) else .wild := rfl
  rw [this, assert_bound (by omega), Out.assert, if_pos (by simpa using h)]
  exact if_pos h

theorem refSet_in {sz : Nat} {b : PhysBuf} {a : W} (h : InBuf b a sz) (v : BitVec (8 * sz)) : refSet sz b a v =
    .ok { b with byte := fun x => if a.toNat ≤ x ∧ x < a.toNat + sz then v.extractLsb' (8 * (x - a.toNat)) 8 else b.byte x } := by
  unfold InBuf at h
  have := b.size.isLt
  have : refSet sz b a v = Out.bind (Out.assert (decide (a + BitVec.ofNat 64 sz ≤ b.size))) fun _ =>
    if a.toNat + sz ≤ b.size.toNat then
      .ok { b with byte := fun x => if a.toNat ≤ x ∧ x < a.toNat + sz then v.extractLsb' (8 * (x - a.toNat)) 8 else b.byte x } else .wild := rfl
  rw [this, assert_bound (by omega), Out.assert, if_pos (by simpa using h)]
  exact if_pos h

theorem refGet_out {sz : Nat} {b : PhysBuf} {a : W} (h : ¬ InBuf b a sz) : refGet sz b a = .abort ∨ refGet sz b a = .wild := by
  unfold InBuf at h
  have : refGet sz b a = Out.bind (Out.assert (decide (a + BitVec.ofNat 64 sz ≤ b.size))) fun _ =>
    if a.toNat + sz ≤ b.size.toNat then .ok (BitVec.ofNat (8 * sz) (leNat b.byte a.toNat sz)) else .wild := rfl
  rw [this, Out.assert]
  split
  · right; rfl
  · exact .inl rfl

theorem refSet_out {sz : Nat} {b : PhysBuf} {a : W} (h : ¬ InBuf b a sz) (v : BitVec (8 * sz)) : refSet sz b a v = .abort ∨ refSet sz b a v = .wild := by
  unfold InBuf at h
  have : refSet sz b a v = Out.bind (Out.assert (decide (a + BitVec.ofNat 64 sz ≤ b.size))) fun _ =>
    if a.toNat + sz ≤ b.size.toNat then
      .ok { b with byte := fun x => if a.toNat ≤ x ∧ x < a.toNat + sz then v.extractLsb' (8 * (x - a.toNat)) 8 else b.byte x } else .wild := rfl
  rw [this, Out.assert]
  split
  · right; rfl
  · exact .inl rfl

/-- C55, reads: a read ends exactly when it is in bounds; byte `i` of the value is the byte at `a + i`. -/
theorem C55_read (sz : Nat) (b : PhysBuf) (a : W) (v : BitVec (8 * sz)) :
    refGet sz b a = .ok v ↔ InBuf b a sz ∧ ∀ i, i < sz → v.extractLsb' (8 * i) 8 = b.byte (a.toNat + i) := by
  constructor
  · intro h
    rcases Classical.em (InBuf b a sz) with hi | hi
    · rw [refGet_in hi] at h
      cases h
      exact ⟨hi, fun i hlt => leNat_byte _ _ _ _ hlt⟩
    · rcases refGet_out hi with h2 | h2 <;> rw [h2] at h <;> cases h
  · rintro ⟨hi, hb⟩
    rw [refGet_in hi]
    congr 1
    exact bytes_ext fun i hlt => by rw [leNat_byte _ _ _ _ hlt, hb i hlt]

/-- C55, writes: a write ends exactly when it is in bounds; it sets the `sz` bytes from `a` and no other. -/
theorem C55_write (sz : Nat) (b b' : PhysBuf) (a : W) (v : BitVec (8 * sz)) :
    refSet sz b a v = .ok b' ↔ InBuf b a sz ∧ b'.size = b.size ∧ (∀ i, i < sz → b'.byte (a.toNat + i) = v.extractLsb' (8 * i) 8) ∧
      ∀ x, x < a.toNat ∨ a.toNat + sz ≤ x → b'.byte x = b.byte x := by
  constructor
  · intro h
    rcases Classical.em (InBuf b a sz) with hi | hi
    · rw [refSet_in hi] at h
      cases h
      refine ⟨hi, rfl, fun i hlt => ?_, fun x hx => ?_⟩
      · dsimp only
        rw [if_pos (by omega), show a.toNat + i - a.toNat = i by omega]
      · dsimp only
        rw [if_neg (by omega)]
    · rcases refSet_out hi v with h2 | h2 <;> rw [h2] at h <;> cases h
  · rintro ⟨hi, hs, h1, h2⟩
    rw [refSet_in hi]
    congr 1
    obtain ⟨s', f'⟩ := b'
    obtain rfl : s' = b.size := hs
    congr 1
    funext x
    dsimp only at h1 h2
    split
    · rw [show x = a.toNat + (x - a.toNat) by omega, h1 _ (by omega), show a.toNat + (x - a.toNat) - a.toNat = x - a.toNat by omega]
    · rw [h2 x (by omega)]

/-- C55, read back: what was written is read; a disjoint access does not see it. -/
theorem C55_read_back (sz : Nat) (b b' : PhysBuf) (a : W) (v : BitVec (8 * sz)) (h : refSet sz b a v = .ok b') :
    refGet sz b' a = .ok v ∧ ∀ (sz' : Nat) (a' : W), (a'.toNat + sz' ≤ a.toNat ∨ a.toNat + sz ≤ a'.toNat) → refGet sz' b' a' = refGet sz' b a' := by
  obtain ⟨h1, h2, h3, h4⟩ := (C55_write _ _ _ _ _).1 h
  refine ⟨(C55_read _ _ _ _).2 ⟨?_, fun i hi => (h3 i hi).symm⟩, fun sz' a' hd => ?_⟩
  · unfold InBuf at *; rw [h2]; exact h1
  · have hgen : ∀ n k, (∀ i, i < n → b'.byte (k + i) = b.byte (k + i)) → leNat b'.byte k n = leNat b.byte k n := by
      intro n
      induction n with
      | zero => intro k _; rfl
      | succ n ih =>
          intro k hk
          rw [leNat, leNat, ih (k + 1) (fun i hi => by have := hk (i + 1) (by omega); rwa [show k + (i + 1) = k + 1 + i by omega] at this)]
          have := hk 0 (by omega)
          rw [Nat.add_zero] at this
          rw [this]
    have e1 : ∀ b : PhysBuf, refGet sz' b a' = Out.bind (Out.assert (decide (a' + BitVec.ofNat 64 sz' ≤ b.size))) fun _ =>
      if a'.toNat + sz' ≤ b.size.toNat then .ok (BitVec.ofNat (8 * sz') (leNat b.byte a'.toNat sz')) else .wild := fun _ => rfl
    rw [e1, e1, h2, hgen sz' a'.toNat (fun i hi => h4 _ (by omega))]

/-- C55, updates in place (`+=`, `-=`, `|=`, `&=`, for an operation `f`): they end exactly when in bounds, the value read back is `f` of the old value and the operand, in this
order, and disjoint accesses do not see the update. -/
theorem C55_update (sz : Nat) (f : BitVec (8 * sz) → BitVec (8 * sz) → BitVec (8 * sz)) (b : PhysBuf) (a : W) (v : BitVec (8 * sz)) :
    ((∃ b', refUpdate sz f b a v = .ok b') ↔ InBuf b a sz) ∧
    ∀ b', refUpdate sz f b a v = .ok b' → ∃ old, refGet sz b a = .ok old ∧ refGet sz b' a = .ok (f old v) ∧
      ∀ (sz' : Nat) (a' : W), (a'.toNat + sz' ≤ a.toNat ∨ a.toNat + sz ≤ a'.toNat) → refGet sz' b' a' = refGet sz' b a' := by
  have e : refUpdate sz f b a v = Out.bind (refGet sz b a) fun w => refSet sz b a (f w v) := rfl
  rw [e]
  rcases Classical.em (InBuf b a sz) with hi | hi
  · rw [refGet_in hi]
    refine ⟨iff_of_true ⟨_, refSet_in hi _⟩ hi, fun b' hb => ⟨_, rfl, ?_⟩⟩
    exact C55_read_back _ _ _ _ _ hb
  · rcases refGet_out hi with h | h <;> rw [h] <;> exact ⟨iff_of_false (fun ⟨_, hh⟩ => by cases hh) hi, fun _ hh => by cases hh⟩

/-- `*p -= 3` on a byte that holds 5 leaves 2. -/
example : (match refUpdate 1 (· - ·) ⟨16, fun _ => 5⟩ 7 3 with | .ok b' => (b'.byte 6, b'.byte 7, b'.byte 8) | _ => (0, 0, 0)) = (5, 2, 5) := by decide

/-! ### C56 -/

/-- C56, in full: an access outside physical memory always stops at an assertion. -/
def C56_statement : Prop := ∀ (sz : Nat) (b : PhysBuf) (a : W), 0 < sz → sz ≤ 8 → ¬ InBuf b a sz → refGet sz b a = .abort ∧ ∀ v, refSet sz b a v = .abort

/-- C56, for all addresses but the last few of the 64-bit space. -/
theorem C56_bounds_partial (sz : Nat) (b : PhysBuf) (a : W) (h : ¬ InBuf b a sz) (ha : a.toNat + sz < 2 ^ 64) :
    refGet sz b a = .abort ∧ ∀ v, refSet sz b a v = .abort := by
  unfold InBuf at h
  refine ⟨?_, fun v => ?_⟩
  · have : refGet sz b a = Out.bind (Out.assert (decide (a + BitVec.ofNat 64 sz ≤ b.size))) fun _ =>
      if a.toNat + sz ≤ b.size.toNat then .ok (BitVec.ofNat (8 * sz) (leNat b.byte a.toNat sz)) else .wild := rfl
    rw [this, assert_bound ha, Out.assert, if_neg (by simpa using h)]
    rfl
  · have : refSet sz b a v = Out.bind (Out.assert (decide (a + BitVec.ofNat 64 sz ≤ b.size))) fun _ =>
      if a.toNat + sz ≤ b.size.toNat then
        .ok { b with byte := fun x => if a.toNat ≤ x ∧ x < a.toNat + sz then v.extractLsb' (8 * (x - a.toNat)) 8 else b.byte x } else .wild := rfl
    rw [this, assert_bound ha, Out.assert, if_neg (by simpa using h)]
    rfl

/-- A buffer of 64 KiB. -/
def toyBuf : PhysBuf := ⟨0x10000, fun x => BitVec.ofNat 8 (x * 7 + 3)⟩

/-- The assertion adds before it compares: at the very top of the address space the sum wraps, and the access is not caught. -/
theorem C56_statement_false : ¬ C56_statement := by
  intro h
  have h1 := (h 8 toyBuf 0xfffffffffffffff8 (by decide) (by decide) (by unfold InBuf; decide)).1
  have h2 : refGet 8 toyBuf 0xfffffffffffffff8 = .wild := by decide
  rw [h2] at h1
  cases h1

example : InBuf toyBuf 0x123 8 ∧ refGet 4 toyBuf 0x100 = .ok 0x18110a03 ∧ ¬ InBuf toyBuf 0xfffd 4 ∧ (0xfffd : W).toNat + 4 < 2 ^ 64 := by
  unfold InBuf; decide

/-! ### The word memory of the model represents the byte memory of the code -/

/-- Byte `x` of the buffer is the right byte of the word of `m` that contains it. -/
structure Rep (g : Cfg) (b : PhysBuf) (m : Machine) : Prop where
  size : b.size = g.dramSize
  bytes : ∀ x, b.byte x = (m.mem (x / 8 * 8)).extractLsb' (8 * (x % 8)) 8

theorem lane32_byte (w : W) (a i : Nat) (ha : a % 4 = 0) (hi : i < 4) :
    (lane32 w a).extractLsb' (8 * i) 8 = w.extractLsb' (8 * ((a + i) % 8)) 8 := by
  apply BitVec.eq_of_getLsbD_eq
  intro j hj
  have hc : a % 8 = 0 ∨ a % 8 = 4 := by omega
  unfold lane32
  rcases hc with hc | hc
  · rw [if_pos (by omega)]
    simp only [BitVec.getLsbD_extractLsb', hj, decide_true, Bool.true_and, show 8 * i + j < 32 by omega]
    rw [show (a + i) % 8 = i by omega, Nat.zero_add]
  · rw [if_neg (by omega)]
    simp only [BitVec.getLsbD_extractLsb', hj, decide_true, Bool.true_and, show 8 * i + j < 32 by omega]
    rw [show 32 + (8 * i + j) = 8 * ((a + i) % 8) + j by omega]

theorem setLane32_byte (w : W) (a x : Nat) (v : W32) (ha : a % 4 = 0) (hx : x / 8 = a / 8) :
    (setLane32 w a v).extractLsb' (8 * (x % 8)) 8 = if a ≤ x ∧ x < a + 4 then v.extractLsb' (8 * (x - a)) 8 else w.extractLsb' (8 * (x % 8)) 8 := by
  apply BitVec.eq_of_getLsbD_eq
  intro j hj
  have hc : a % 8 = 0 ∨ a % 8 = 4 := by omega
  unfold setLane32
  rcases hc with hc | hc
  · rw [if_pos (by omega)]
    by_cases hin : a ≤ x ∧ x < a + 4
    · rw [if_pos hin]
      simp only [BitVec.getLsbD_extractLsb', BitVec.getLsbD_append, hj, decide_true, Bool.true_and]
      rw [if_pos (by omega), show 8 * (x % 8) + j = 8 * (x - a) + j by omega]
    · rw [if_neg hin]
      simp only [BitVec.getLsbD_extractLsb', BitVec.getLsbD_append, hj, decide_true, Bool.true_and]
      rw [if_neg (by omega)]
      simp only [show 8 * (x % 8) + j - 32 < 32 by omega, decide_true, Bool.true_and]
      rw [show 32 + (8 * (x % 8) + j - 32) = 8 * (x % 8) + j by omega]
  · rw [if_neg (by omega)]
    by_cases hin : a ≤ x ∧ x < a + 4
    · rw [if_pos hin]
      simp only [BitVec.getLsbD_extractLsb', BitVec.getLsbD_append, hj, decide_true, Bool.true_and]
      rw [if_neg (by omega), show 8 * (x % 8) + j - 32 = 8 * (x - a) + j by omega]
    · rw [if_neg hin]
      simp only [BitVec.getLsbD_extractLsb', BitVec.getLsbD_append, hj, decide_true, Bool.true_and]
      rw [if_pos (by omega)]
      simp only [show 8 * (x % 8) + j < 32 by omega, decide_true, Bool.true_and, Nat.zero_add]

/-- C55, the model: on aligned addresses in DRAM, the loads and stores of the word machine that all other theorems are about are those of the code's
byte buffer, for both access sizes. -/
theorem C55_word_memory {g : Cfg} {c : Nat} {b : PhysBuf} {m : Machine} (h : Rep g b m) (a : W) :
    (okAddr g a = true → refGet 8 b a = .ok (m.mem a.toNat) ∧ exec g c (.load a) m = some (m.mem a.toNat, m) ∧
      ∀ v : W, ∃ b' m', refSet 8 b a v = .ok b' ∧ exec g c (.store a v) m = some (0, m') ∧ Rep g b' m') ∧
    (okAddr32 g a = true → ∃ w : W32, refGet 4 b a = .ok w ∧ exec g c (.load32 a) m = some (w.setWidth 64, m) ∧
      ∀ v : W32, ∃ b' m', refSet 4 b a v = .ok b' ∧ exec g c (.store32 a v) m = some (0, m') ∧ Rep g b' m') := by
  constructor
  · intro hok
    obtain ⟨h1, h2⟩ := (okAddr_iff a).1 hok
    have hin : InBuf b a 8 := by unfold InBuf; rw [h.size]; exact h2
    refine ⟨(C55_read 8 b a _).2 ⟨hin, fun i hi => ?_⟩, ?_, fun v => ⟨_, { m with mem := upd m.mem a.toNat v }, refSet_in (sz := 8) hin v, ?_, h.size, ?_⟩⟩
    · rw [h.bytes, show (a.toNat + i) / 8 * 8 = a.toNat by omega, show (a.toNat + i) % 8 = i by omega]
    · show (if okAddr g a then _ else _) = _
      rw [if_pos hok]
    · show (if okAddr g a then _ else _) = _
      rw [if_pos hok]
    · intro x
      dsimp only
      by_cases hx : a.toNat ≤ x ∧ x < a.toNat + 8
      · rw [if_pos hx, show x / 8 * 8 = a.toNat by omega, upd_same, show x - a.toNat = x % 8 by omega]
      · rw [if_neg hx, upd_ne _ _ (show x / 8 * 8 ≠ a.toNat by omega), h.bytes]
  · intro hok
    have hok' := hok
    simp only [okAddr32, decide_eq_true_eq] at hok'
    obtain ⟨h1, h2⟩ := hok'
    have hin : InBuf b a 4 := by unfold InBuf; rw [h.size]; exact h2
    refine ⟨lane32 (m.mem (a.toNat / 8 * 8)) a.toNat, (C55_read 4 b a _).2 ⟨hin, fun i hi => ?_⟩, ?_, fun v => ⟨_,
      { m with mem := upd m.mem (a.toNat / 8 * 8) (setLane32 (m.mem (a.toNat / 8 * 8)) a.toNat v) }, refSet_in (sz := 4) hin v, ?_, h.size, ?_⟩⟩
    · rw [h.bytes, show (a.toNat + i) / 8 * 8 = a.toNat / 8 * 8 by omega]
      exact lane32_byte _ _ _ h1 hi
    · show (if okAddr32 g a then _ else _) = _
      rw [if_pos hok]
    · show (if okAddr32 g a then _ else _) = _
      rw [if_pos hok]
    · intro x
      dsimp only
      by_cases hw : x / 8 = a.toNat / 8
      · rw [hw, upd_same, setLane32_byte _ _ _ _ h1 hw, h.bytes, hw]
      · rw [upd_ne _ _ (by omega), if_neg (by omega), h.bytes]

/-- Every machine is represented by a buffer. -/
example (g : Cfg) (m : Machine) : ∃ b, Rep g b m := ⟨⟨g.dramSize, fun x => (m.mem (x / 8 * 8)).extractLsb' (8 * (x % 8)) 8⟩, rfl, fun _ => rfl⟩

/-! ### C57 -/

theorem ptrAdd_one {sz : Nat} {p : W} (h : p.toNat + sz < 2 ^ 64) : (ptrAdd sz p 1).toNat = p.toNat + sz := by
  rw [ptrAdd, BitVec.toNat_add, BitVec.toNat_mul, BitVec.toNat_ofNat, show (1 : W).toNat = 1 from rfl, Nat.one_mul, Nat.mod_mod, Nat.mod_eq_of_lt (a := sz) (by omega),
    Nat.mod_eq_of_lt h]

theorem words_toNat {sz : Nat} (h : sz < 2 ^ 64) (bytes : W) : (bytes / BitVec.ofNat 64 sz).toNat = bytes.toNat / sz := by
  rw [BitVec.toNat_udiv, BitVec.toNat_ofNat, Nat.mod_eq_of_lt h]

theorem words_le (bytes : W) (sz : Nat) : bytes.toNat / sz * sz < 2 ^ 64 := Nat.lt_of_le_of_lt (Nat.div_mul_le_self _ _) bytes.isLt

theorem ptrAdd_words {sz : Nat} (h : sz < 2 ^ 64) (p bytes : W) :
    (ptrAdd sz p (bytes / BitVec.ofNat 64 sz)).toNat = (p.toNat + bytes.toNat / sz * sz) % 2 ^ 64 := by
  rw [ptrAdd, BitVec.toNat_add, BitVec.toNat_mul, words_toNat h, BitVec.toNat_ofNat, Nat.mod_eq_of_lt (a := sz) h, Nat.mod_eq_of_lt (words_le bytes sz)]

/-- The bytes from `s` up to `e` cleared. -/
def PhysBuf.clear (b : PhysBuf) (s e : Nat) : PhysBuf := { b with byte := fun x => if s ≤ x ∧ x < e then 0 else b.byte x }

theorem bzeroLoop_in {sz : Nat} (hsz : 0 < sz) {last : W} (n : Nat) : ∀ (fuel : Nat) (p : W) (b : PhysBuf), n < fuel → p.toNat + n * sz = last.toNat → InBuf b p (n * sz) →
    bzeroLoop sz last fuel p b = .ok (b.clear p.toNat (p.toNat + n * sz)) := by
  induction n with
  | zero =>
      intro fuel p b h1 h2 h3
      obtain ⟨fuel, rfl⟩ : ∃ k, fuel = k + 1 := ⟨fuel - 1, by omega⟩
      have : p = last := (W.eq_iff _ _).2 (by omega)
      rw [bzeroLoop, if_pos this]
      congr 1
      obtain ⟨s, f⟩ := b
      unfold PhysBuf.clear
      congr 1
      funext x
      rw [if_neg (by omega)]
  | succ n ih =>
      intro fuel p b h1 h2 h3
      obtain ⟨fuel, rfl⟩ : ∃ k, fuel = k + 1 := ⟨fuel - 1, by omega⟩
      unfold InBuf at h3
      rw [Nat.succ_mul] at h2 h3
      have hlt := b.size.isLt
      have hne : p ≠ last := by intro h; rw [h] at h2; omega
      have hp := ptrAdd_one (sz := sz) (p := p) (by omega)
      rw [bzeroLoop, if_neg hne]
      show Out.bind _ _ = _
      rw [refSet_in (by unfold InBuf; omega)]
      show bzeroLoop sz last fuel (ptrAdd sz p 1) _ = _
      rw [ih _ _ _ (by omega) (by omega) (by unfold InBuf; dsimp only; omega), hp]
      congr 1
      unfold PhysBuf.clear
      congr 1
      funext x
      dsimp only
      rw [Nat.succ_mul n sz]
      by_cases h4 : p.toNat + sz ≤ x ∧ x < p.toNat + sz + n * sz
      · rw [if_pos h4, if_pos (by omega)]
      · rw [if_neg h4]
        by_cases h5 : p.toNat ≤ x ∧ x < p.toNat + sz
        · rw [if_pos h5, if_pos (by omega)]
          apply BitVec.eq_of_toNat_eq
          rw [extract_digit]
          simp
        · rw [if_neg h5, if_neg (by omega)]

theorem bzeroLoop_out {sz : Nat} (hsz : 0 < sz) {last : W} (n : Nat) : ∀ (fuel : Nat) (p : W) (b : PhysBuf), n < fuel → n * sz < 2 ^ 64 →
    last.toNat = (p.toNat + n * sz) % 2 ^ 64 → ¬ InBuf b p (n * sz) → 0 < n → p.toNat + sz < 2 ^ 64 → b.size.toNat + sz < 2 ^ 64 →
    bzeroLoop sz last fuel p b = .abort := by
  induction n with
  | zero => intro fuel p b _ _ _ _ h; omega
  | succ n ih =>
      intro fuel p b h1 h2 h3 h4 h5 h6 h7
      obtain ⟨fuel, rfl⟩ : ∃ k, fuel = k + 1 := ⟨fuel - 1, by omega⟩
      unfold InBuf at h4
      rw [Nat.succ_mul] at h2 h3 h4
      have hpl := p.isLt
      have hne : p ≠ last := by intro h; rw [← h] at h3; omega
      have hp := ptrAdd_one (sz := sz) (p := p) (by omega)
      rw [bzeroLoop, if_neg hne]
      show Out.bind _ _ = _
      rcases Classical.em (InBuf b p sz) with hi | hi
      · rw [refSet_in hi]
        unfold InBuf at hi
        show bzeroLoop sz last fuel (ptrAdd sz p 1) _ = _
        have hn : 0 < n := by
          rcases Nat.eq_zero_or_pos n with h | h
          · subst h; omega
          · exact h
        exact ih _ _ _ (by omega) (by omega) (by rw [hp, h3]; congr 1; omega) (by unfold InBuf; dsimp only; omega) hn (by omega) (by dsimp only; omega)
      · rw [(C56_bounds_partial sz b p hi h6).2 0]
        rfl

theorem words_lt_fuel (bytes : W) (sz : Nat) (hsz : 0 < sz) : bytes.toNat / sz < 2 ^ 64 :=
  Nat.lt_of_le_of_lt (Nat.div_le_self _ _) bytes.isLt

/-- C57, `bzero`: it clears the whole elements that fit in `bytes`, and nothing else; when these are not all in physical memory, it is stopped
(if neither the start address nor the memory reaches the end of the address space). -/
theorem C57_bzero (sz : Nat) (hsz : 0 < sz) (hsz' : sz < 2 ^ 64) (b : PhysBuf) (start bytes : W) :
    (InBuf b start (bytes.toNat / sz * sz) → ∃ b', bzeroT sz b start bytes = .ok b' ∧ b'.size = b.size ∧
      ∀ x, b'.byte x = if start.toNat ≤ x ∧ x < start.toNat + bytes.toNat / sz * sz then 0 else b.byte x) ∧
    (¬ InBuf b start (bytes.toNat / sz * sz) → start.toNat + sz < 2 ^ 64 → b.size.toNat + sz < 2 ^ 64 → bzeroT sz b start bytes = .abort) := by
  have e : bzeroT sz b start bytes = Out.bind (Out.assert (decide (ptrAdd sz start (bytes / BitVec.ofNat 64 sz) ≤ b.size))) fun _ =>
    bzeroLoop sz (ptrAdd sz start (bytes / BitVec.ofNat 64 sz)) (2 ^ 64) start b := rfl
  have hw := ptrAdd_words hsz' start bytes
  have hlt := b.size.isLt
  refine ⟨fun h => ⟨b.clear start.toNat (start.toNat + bytes.toNat / sz * sz), ?_, rfl, fun x => rfl⟩, fun h h1 h2 => ?_⟩
  · have h' := h
    unfold InBuf at h'
    rw [Nat.mod_eq_of_lt (by omega)] at hw
    rw [e, Out.assert, if_pos (by rw [decide_eq_true_eq, BitVec.le_def, hw]; exact h')]
    exact bzeroLoop_in hsz _ _ _ _ (words_lt_fuel bytes sz hsz) hw.symm h
  · rw [e, Out.assert]
    split
    · rename_i hd
      rw [decide_eq_true_eq, BitVec.le_def, hw] at hd
      refine bzeroLoop_out hsz _ _ _ _ (words_lt_fuel bytes sz hsz) (words_le bytes sz) hw h ?_ h1 h2
      rcases Nat.eq_zero_or_pos (bytes.toNat / sz) with h0 | h0
      · unfold InBuf at h
        rw [h0, Nat.zero_mul, Nat.add_zero] at h hd
        rw [Nat.mod_eq_of_lt start.isLt] at hd
        exact absurd hd h
      · exact h0
    · rfl

/-- What `bcopy` has to do. -/
def PhysBuf.copied (b : PhysBuf) (dst src len : Nat) : PhysBuf := { b with byte := fun x => if dst ≤ x ∧ x < dst + len then b.byte (src + (x - dst)) else b.byte x }

theorem bcopyLoop_in {sz : Nat} (hsz : 0 < sz) {last : W} (n : Nat) : ∀ (fuel : Nat) (src dst : W) (b : PhysBuf), n < fuel → src.toNat + n * sz = last.toNat →
    InBuf b src (n * sz) → InBuf b dst (n * sz) → (src.toNat + n * sz ≤ dst.toNat ∨ dst.toNat + n * sz ≤ src.toNat) →
    bcopyLoop sz last fuel src dst b = .ok (b.copied dst.toNat src.toNat (n * sz)) := by
  induction n with
  | zero =>
      intro fuel p q b h1 h2 h3 h4 h5
      obtain ⟨fuel, rfl⟩ : ∃ k, fuel = k + 1 := ⟨fuel - 1, by omega⟩
      have : p = last := (W.eq_iff _ _).2 (by omega)
      rw [bcopyLoop, if_pos this]
      congr 1
      obtain ⟨s, f⟩ := b
      unfold PhysBuf.copied
      congr 1
      funext x
      rw [if_neg (by omega)]
  | succ n ih =>
      intro fuel p q b h1 h2 h3 h4 h5
      obtain ⟨fuel, rfl⟩ : ∃ k, fuel = k + 1 := ⟨fuel - 1, by omega⟩
      unfold InBuf at h3 h4
      rw [Nat.succ_mul] at h2 h3 h4 h5
      have hlt := b.size.isLt
      have hne : p ≠ last := by intro h; rw [h] at h2; omega
      have hp := ptrAdd_one (sz := sz) (p := p) (by omega)
      have hq := ptrAdd_one (sz := sz) (p := q) (by omega)
      rw [bcopyLoop, if_neg hne]
      show Out.bind (Out.bind (refGet sz b p) fun v => refSet sz b q v) _ = _
      rw [refGet_in (by unfold InBuf; omega)]
      show Out.bind (refSet sz b q _) _ = _
      rw [refSet_in (by unfold InBuf; omega)]
      show bcopyLoop sz last fuel (ptrAdd sz p 1) (ptrAdd sz q 1) _ = _
      rw [ih _ _ _ _ (by omega) (by omega) (by unfold InBuf; dsimp only; omega) (by unfold InBuf; dsimp only; omega) (by omega), hp, hq]
      congr 1
      unfold PhysBuf.copied
      congr 1
      funext x
      dsimp only
      rw [Nat.succ_mul n sz]
      by_cases h6 : q.toNat + sz ≤ x ∧ x < q.toNat + sz + n * sz
      · rw [if_pos h6, if_neg (by omega), if_pos (by omega)]
        congr 1
        omega
      · rw [if_neg h6]
        by_cases h7 : q.toNat ≤ x ∧ x < q.toNat + sz
        · rw [if_pos h7, if_pos (by omega), leNat_byte _ _ _ _ (by omega)]
        · rw [if_neg h7, if_neg (by omega)]

/-- C57, `bcopy`: with both buffers in physical memory and not overlapping, it copies the whole elements that fit in `bytes` from `source` to `dest` and
changes nothing else; overlapping or out-of-range buffers are stopped by an assertion (as long as the sums do not wrap). -/
theorem C57_bcopy (sz : Nat) (hsz : 0 < sz) (hsz' : sz < 2 ^ 64) (b : PhysBuf) (dst src bytes : W) :
    (InBuf b src (bytes.toNat / sz * sz) → InBuf b dst (bytes.toNat / sz * sz) →
      (src.toNat + bytes.toNat / sz * sz ≤ dst.toNat ∨ dst.toNat + bytes.toNat / sz * sz ≤ src.toNat) →
      ∃ b', bcopyT sz b dst src bytes = .ok b' ∧ b'.size = b.size ∧
        (∀ i, i < bytes.toNat / sz * sz → b'.byte (dst.toNat + i) = b.byte (src.toNat + i)) ∧
        ∀ x, x < dst.toNat ∨ dst.toNat + bytes.toNat / sz * sz ≤ x → b'.byte x = b.byte x) ∧
    (src.toNat + bytes.toNat / sz * sz < 2 ^ 64 → dst.toNat + bytes.toNat / sz * sz < 2 ^ 64 →
      ¬ (InBuf b src (bytes.toNat / sz * sz) ∧ InBuf b dst (bytes.toNat / sz * sz) ∧
        (src.toNat + bytes.toNat / sz * sz ≤ dst.toNat ∨ dst.toNat + bytes.toNat / sz * sz ≤ src.toNat)) →
      bcopyT sz b dst src bytes = .abort) := by
  have e : bcopyT sz b dst src bytes =
    Out.bind (Out.assert (decide (ptrAdd sz src (bytes / BitVec.ofNat 64 sz) ≤ b.size))) fun _ =>
    Out.bind (Out.assert (decide (ptrAdd sz dst (bytes / BitVec.ofNat 64 sz) ≤ b.size))) fun _ =>
    Out.bind (Out.assert (decide (ptrAdd sz src (bytes / BitVec.ofNat 64 sz) ≤ dst) || decide (ptrAdd sz dst (bytes / BitVec.ofNat 64 sz) ≤ src))) fun _ =>
    bcopyLoop sz (ptrAdd sz src (bytes / BitVec.ofNat 64 sz)) (2 ^ 64) src dst b := rfl
  have hw := ptrAdd_words hsz' src bytes
  have hw2 := ptrAdd_words hsz' dst bytes
  have hlt := b.size.isLt
  refine ⟨fun h1 h2 h3 => ⟨b.copied dst.toNat src.toNat (bytes.toNat / sz * sz), ?_, rfl, fun i hi => ?_, fun x hx => ?_⟩, fun h1 h2 h => ?_⟩
  · have h1' := h1
    have h2' := h2
    unfold InBuf at h1' h2'
    rw [Nat.mod_eq_of_lt (by omega)] at hw hw2
    rw [e, Out.assert, if_pos (by rw [decide_eq_true_eq, BitVec.le_def, hw]; exact h1')]
    show Out.bind _ _ = _
    rw [Out.assert, if_pos (by rw [decide_eq_true_eq, BitVec.le_def, hw2]; exact h2')]
    show Out.bind _ _ = _
    rw [Out.assert, if_pos (by rw [Bool.or_eq_true, decide_eq_true_eq, decide_eq_true_eq, BitVec.le_def, BitVec.le_def, hw, hw2]; exact h3)]
    exact bcopyLoop_in hsz _ _ _ _ _ (words_lt_fuel bytes sz hsz) hw.symm h1 h2 h3
  · unfold PhysBuf.copied
    dsimp only
    rw [if_pos (by omega), show dst.toNat + i - dst.toNat = i by omega]
  · unfold PhysBuf.copied
    dsimp only
    rw [if_neg (by omega)]
  · rw [Nat.mod_eq_of_lt h1] at hw
    rw [Nat.mod_eq_of_lt h2] at hw2
    unfold InBuf at h
    rw [e, Out.assert]
    split
    · rename_i ha
      show Out.bind _ _ = _
      rw [Out.assert]
      split
      · rename_i hb
        show Out.bind _ _ = _
        rw [Out.assert]
        split
        · rename_i hc
          rw [decide_eq_true_eq, BitVec.le_def, hw] at ha
          rw [decide_eq_true_eq, BitVec.le_def, hw2] at hb
          rw [Bool.or_eq_true, decide_eq_true_eq, decide_eq_true_eq, BitVec.le_def, BitVec.le_def, hw, hw2] at hc
          exact absurd ⟨ha, hb, hc⟩ h
        · rfl
      · rfl
    · rfl

example : InBuf toyBuf 0x1000 ((0x1004 : W).toNat / 8 * 8) ∧ InBuf toyBuf 0x2000 ((0x1004 : W).toNat / 8 * 8) ∧
    (0x1000 : W).toNat + (0x1004 : W).toNat / 8 * 8 ≤ (0x2000 : W).toNat := by unfold InBuf; decide
/-- One byte more, and the buffers overlap. -/
example : bcopyT 8 toyBuf 0x1ff8 0x1000 0x1000 = .abort :=
  (C57_bcopy 8 (by decide) (by decide) toyBuf 0x1ff8 0x1000 0x1000).2 (by decide) (by decide) (by unfold InBuf; decide)

/-- C57, the monitor's `bzero`: on the word machine it does what the library's `bzero<size_t>` does to the byte buffer, assertion included. -/
theorem C57_monitor_bzero {g : Cfg} {c : Nat} {b : PhysBuf} {m : Machine} (h : Rep g b m) (start bytes : W) (ha : start.toNat % 8 = 0)
    (hin : InBuf b start (bytes.toNat / 8 * 8)) :
    ∃ b' m', bzeroT 8 b start bytes = .ok b' ∧ run g c (bzero start bytes) m = some ((), m') ∧ Rep g b' m' := by
  obtain ⟨b', h1, h2, h3⟩ := (C57_bzero 8 (by decide) (by decide) b start bytes).1 hin
  unfold InBuf at hin
  rw [h.size] at hin
  refine ⟨b', m.zero start.toNat (start.toNat + 8 * (bytes.toNat / 8)), h1, ?_, by rw [h2, h.size], fun x => ?_⟩
  · exact run_bzeroWords' g c _ start m ha (by omega)
  · rw [h3, zero_mem]
    by_cases hx : start.toNat ≤ x ∧ x < start.toNat + bytes.toNat / 8 * 8
    · rw [if_pos hx, if_pos (by omega)]
      apply BitVec.eq_of_toNat_eq
      rw [extract_digit]
      simp
    · rw [if_neg hx, if_neg (by omega), h.bytes]

/-! ### C58 -/

theorem run_load_none {g : Cfg} {c : Nat} {a : W} (m : Machine) (h : ¬ okAddr g a = true) : run g c (load a) m = none := by
  rw [load, run_act]
  show (if okAddr g a then _ else _) = _
  rw [if_neg h]

/-- C58 for a core that is not disturbed: the load/store sequences of the test architecture have the effect of the atomic operation, on every word of
every memory. -/
theorem C58_alone_partial (g : Cfg) (c : Nat) (a v : W) (m : Machine) :
    run g c (tasCode a) m = run g c (tas a) m ∧
    run g c (fetchAddCode a v) m = run g c (act (.fetchAdd a v)) m ∧
    run g c (fetchSubCode a v) m = run g c (act (.fetchAdd a (-v))) m ∧
    (okAddr g a = true → run g c (clearCode a) m = some ((), { m with mem := upd m.mem a.toNat 0 })) := by
  rcases Classical.em (okAddr g a = true) with h | h
  · have hadd : ∀ v, exec g c (.fetchAdd a v) m = some (m.mem a.toNat, { m with mem := upd m.mem a.toNat (m.mem a.toNat + v) }) := by
      intro v
      show (if okAddr g a then _ else _) = _
      rw [if_pos h]
    refine ⟨?_, ?_, ?_, fun _ => run_store _ _ _ _ _ h⟩
    · rw [tasCode, run_bind, run_load _ _ _ _ h, Option.bind_some, run_bind, run_store _ _ _ _ _ h, run_tas _ _ _ _ h]
      rfl
    · rw [fetchAddCode, run_bind, run_load _ _ _ _ h, Option.bind_some, run_bind, run_load _ _ _ _ h, Option.bind_some, run_bind,
        run_store _ _ _ _ _ h, run_act, hadd]
      rfl
    · rw [fetchSubCode, run_bind, run_load _ _ _ _ h, Option.bind_some, run_bind, run_load _ _ _ _ h, Option.bind_some, run_bind,
        run_store _ _ _ _ _ h, run_act, hadd, BitVec.sub_eq_add_neg]
      rfl
  · have hadd : ∀ v, exec g c (.fetchAdd a v) m = none := by
      intro v
      show (if okAddr g a then _ else _) = _
      rw [if_neg h]
    refine ⟨?_, ?_, ?_, fun hh => absurd hh h⟩
    · rw [tasCode, run_bind, run_load_none _ h]
      have hex : exec g c (.tas a) m = none := by
        show (if okAddr g a then _ else _) = _
        rw [if_neg h]
      rw [show tas a = Prog.op (.tas a) (fun v => .ret (v != 0)) from rfl, run, hex]
      rfl
    · rw [fetchAddCode, run_bind, run_load_none _ h, run_act, hadd]; rfl
    · rw [fetchSubCode, run_bind, run_load_none _ h, run_act, hadd]; rfl

/-- C58, in full, for a lock implementation: whatever the schedule, of two cores that test and set a free flag exactly one gets it. -/
def C58_statement (testAndSet : W → Prog Bool) : Prop := ∀ (g : Cfg) (a : W) (m m' : Machine) (s : List Bool) (x y : Bool), m.mem a.toNat = 0 →
  runTwo g s (testAndSet a) (testAndSet a) m = some (.ret x, .ret y, m') → x ≠ y

set_option maxRecDepth 100000 in
/-- Both cores load before either stores. -/
theorem tas_race : (runTwo toyG [true, false, true, false] (tasCode 0x9000) (tasCode 0x9000) toyM).map (fun r =>
    match r.1, r.2.1 with | .ret x, .ret y => (x, y) | _, _ => (true, true)) = some (false, false) := by decide +kernel

/-- The flags of the test architecture are not atomic: both cores can get the lock. -/
theorem C58_statement_false : ¬ C58_statement tasCode := by
  intro h
  have h1 := tas_race
  have h0 : toyM.mem (0x9000 : W).toNat = 0 := by set_option maxRecDepth 100000 in decide +kernel
  cases hr : runTwo toyG [true, false, true, false] (tasCode 0x9000) (tasCode 0x9000) toyM with
  | none => rw [hr] at h1; cases h1
  | some r =>
      obtain ⟨p, q, m'⟩ := r
      rw [hr, Option.map_some] at h1
      cases p with
      | ret x =>
          cases q with
          | ret y =>
              have h2 := h toyG 0x9000 toyM m' _ x y h0 hr
              simp only [Option.some.injEq, Prod.mk.injEq] at h1
              rw [h1.1, h1.2] at h2
              exact h2 rfl
          | _ => simp at h1
      | _ => simp at h1

/-- Nor are those of the RISC-V port, where the function is a stub that always reports success. -/
theorem C58_riscv_false : ¬ C58_statement tasStub := by
  intro h
  exact h toyG 0x9000 toyM toyM [] false false (by set_option maxRecDepth 100000 in decide +kernel) rfl rfl

set_option maxRecDepth 100000 in
/-- An update of the block clock can be lost: two cores add 1, the word grows by 1. -/
theorem C58_lost_update : (runTwo toyG [true, true, false, false, false, true] (fetchAddCode 0x9000 1) (fetchAddCode 0x9000 1) toyM).map (fun r =>
    (toyM.mem 0x9000, r.2.2.mem 0x9000)) = some (0, 1) := by decide +kernel

theorem runTwo_nil {α β : Type} (g : Cfg) (p : Prog α) (q : Prog β) (m : Machine) : runTwo g [] p q m = some (p, q, m) := by rw [runTwo]

theorem runTwo_ret {α β : Type} (g : Cfg) (s : List Bool) (x : α) (y : β) (m : Machine) : runTwo g s (.ret x) (.ret y) m = some (.ret x, .ret y, m) := by
  induction s with
  | nil => rw [runTwo]
  | cons b s ih => cases b <;> rw [runTwo] <;> first | exact ih | (intros; simp_all)

/-- The atomic test-and-set that the rest of the model uses has the property. -/
theorem C58_model_tas : C58_statement tas := by
  intro g a m m' s x y h0 h
  have hex : ∀ c (m : Machine), exec g c (.tas a) m = if okAddr g a then some (b2w (m.mem a.toNat != 0), { m with mem := upd m.mem a.toNat 1 }) else none := fun _ _ => rfl
  have e : tas a = Prog.op (.tas a) (fun v => .ret (v != 0)) := rfl
  have h1 : ∀ (s : List Bool) (m : Machine), m.mem a.toNat ≠ 0 → ∀ x0 : Bool, runTwo g s (.ret x0) (tas a) m = some (.ret x, .ret y, m') → x = x0 ∧ y = true := by
    intro s
    induction s with
    | nil => intro m _ x0 hr; rw [runTwo, e] at hr; cases hr
    | cons b s ih =>
        intro m hm x0 hr
        cases b
        · rw [e, runTwo, hex] at hr
          split at hr
          · rw [Option.bind_some, runTwo_ret] at hr
            simp only [Option.some.injEq, Prod.mk.injEq, Prog.ret.injEq] at hr
            refine ⟨hr.1.symm, ?_⟩
            rw [← hr.2.1, bne_iff_ne.2 hm]
            decide
          · cases hr
        · rw [e, runTwo] at hr
          · exact ih m hm x0 hr
          · intro o k hh; cases hh
  have h2 : ∀ (s : List Bool) (m : Machine), m.mem a.toNat ≠ 0 → ∀ y0 : Bool, runTwo g s (tas a) (.ret y0) m = some (.ret x, .ret y, m') → y = y0 ∧ x = true := by
    intro s
    induction s with
    | nil => intro m _ x0 hr; rw [runTwo, e] at hr; cases hr
    | cons b s ih =>
        intro m hm x0 hr
        cases b
        · rw [e, runTwo] at hr
          · exact ih m hm x0 hr
          all_goals (intros; simp_all)
        · rw [e, runTwo, hex] at hr
          split at hr
          · rw [Option.bind_some, runTwo_ret] at hr
            simp only [Option.some.injEq, Prod.mk.injEq, Prog.ret.injEq] at hr
            refine ⟨hr.2.1.symm, ?_⟩
            rw [← hr.1, bne_iff_ne.2 hm]
            decide
          · cases hr
  cases s with
  | nil => rw [runTwo, e] at h; cases h
  | cons b s =>
      have hb : (b2w (m.mem a.toNat != 0) != 0) = false := by rw [h0]; decide
      cases b
      · rw [e, runTwo, hex] at h
        · split at h
          · rw [Option.bind_some] at h
            have := h2 s _ (by dsimp only; rw [upd_same]; decide) _ h
            dsimp only at this
            rw [hb] at this
            rw [this.1, this.2]; decide
          · cases h
        all_goals (intros; simp_all)
      · rw [e, runTwo, hex] at h
        split at h
        · rw [Option.bind_some] at h
          have := h1 s _ (by dsimp only; rw [upd_same]; decide) _ h
          dsimp only at this
          rw [hb] at this
          rw [this.1, this.2]; decide
        · cases h

/-! ### C59 -/

/-- C59. Pointer arithmetic is arithmetic on elements: the offsets add up, subtraction undoes addition, `&p[n]` is `p + n`, and as long as they stay in
the address space distinct elements do not overlap. -/
theorem C59_pointers (sz : Nat) (hsz : 0 < sz) (p n k : W) :
    ptrAdd sz (ptrAdd sz p n) k = ptrAdd sz p (n + k) ∧ ptrSub sz (ptrAdd sz p n) n = p ∧ ptrAdd sz (ptrSub sz p n) n = p ∧
    ptrIndex sz p n = ptrAdd sz p n ∧ ptrAdd sz p 0 = p ∧
    (p.toNat + (n.toNat + 1) * sz ≤ 2 ^ 64 → (ptrAdd sz p n).toNat = p.toNat + n.toNat * sz) ∧
    (p.toNat + (n.toNat + 1) * sz ≤ 2 ^ 64 → p.toNat + (k.toNat + 1) * sz ≤ 2 ^ 64 → n ≠ k →
      (ptrAdd sz p n).toNat + sz ≤ (ptrAdd sz p k).toNat ∨ (ptrAdd sz p k).toNat + sz ≤ (ptrAdd sz p n).toNat) := by
  have key : ∀ n : W, p.toNat + (n.toNat + 1) * sz ≤ 2 ^ 64 → (ptrAdd sz p n).toNat = p.toNat + n.toNat * sz := by
    intro n h
    rw [Nat.succ_mul] at h
    rw [ptrAdd, BitVec.toNat_add, BitVec.toNat_mul, BitVec.toNat_ofNat, Nat.mul_mod_mod, Nat.add_mod_mod, Nat.mod_eq_of_lt (by omega)]
  refine ⟨?_, ?_, ?_, rfl, ?_, key n, fun h1 h2 h3 => ?_⟩
  · unfold ptrAdd; rw [BitVec.add_mul, BitVec.add_assoc]
  · unfold ptrSub ptrAdd; rw [BitVec.add_sub_cancel]
  · unfold ptrSub ptrAdd; rw [BitVec.sub_add_cancel]
  · unfold ptrAdd; simp
  · rw [key n h1, key k h2]
    have h3' : n.toNat ≠ k.toNat := fun h => h3 ((W.eq_iff _ _).2 h)
    rcases Nat.lt_or_gt_of_ne h3' with h | h
    · left
      have := Nat.mul_le_mul_right sz (show n.toNat + 1 ≤ k.toNat by omega)
      rw [Nat.succ_mul] at this
      omega
    · right
      have := Nat.mul_le_mul_right sz (show k.toNat + 1 ≤ n.toNat by omega)
      rw [Nat.succ_mul] at this
      omega

example : (0x9000 : W).toNat + ((3 : W).toNat + 1) * 40 ≤ 2 ^ 64 ∧ ptrAdd 40 0x9000 3 = 0x9078 := by decide

end Sanctum
