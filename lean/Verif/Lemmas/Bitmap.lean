import Verif.Lemmas.Geom
/-
Bitmaps: closed forms of `setBitmapBit` and `readBitmapBit`.
-/
namespace Sanctum

/-- Address of the word of bitmap `b` that holds bit `i`. -/
def bitWordA (b i : W) : W := b + bitmapOffset i * 8

/-- A word with one bit replaced. -/
def setBit (w : W) (i : Nat) (v : Bool) : W := if v then w ||| (1 : W) <<< i else w &&& ~~~ ((1 : W) <<< i)

theorem getLsbD_one_shl (i j : Nat) (hi : i < 64) : ((1 : W) <<< i).getLsbD j = decide (j = i) := by
  rw [BitVec.getLsbD_shiftLeft, show (1 : W) = 1#64 from rfl, BitVec.getLsbD_one]
  by_cases h1 : j = i
  · subst h1; simp [hi]
  · by_cases h2 : j < i
    · simp [h2, h1]
    · have : j - i ≠ 0 := by omega
      simp [h2, h1, this]

theorem getLsbD_setBit (w : W) (i j : Nat) (v : Bool) (hi : i < 64) (hj : j < 64) :
    (setBit w i v).getLsbD j = if j = i then v else w.getLsbD j := by
  unfold setBit
  cases v
  · simp only [Bool.false_eq_true, if_false, BitVec.getLsbD_and, BitVec.getLsbD_not, getLsbD_one_shl i j hi]
    by_cases h : j = i <;> simp [h, hj, hi]
  · simp only [if_true, BitVec.getLsbD_or, getLsbD_one_shl i j hi]
    by_cases h : j = i <;> simp [h]

theorem mod64_toNat (i : W) : (i % 64).toNat = i.toNat % 64 := by
  rw [BitVec.toNat_umod]; rfl
theorem div64_toNat (i : W) : (i / 64).toNat = i.toNat / 64 := by
  rw [BitVec.toNat_udiv]; rfl

theorem and_bitmapMask (w i : W) : ((w &&& bitmapMask i) != 0) = w.getLsbD (i.toNat % 64) := by
  have hlt : i.toNat % 64 < 64 := Nat.mod_lt _ (by decide)
  rw [bitmapMask, mod64_toNat]
  cases hb : w.getLsbD (i.toNat % 64)
  · have : w &&& (1 : W) <<< (i.toNat % 64) = 0 := by
      apply BitVec.eq_of_getLsbD_eq
      intro j _
      rw [BitVec.getLsbD_and, getLsbD_one_shl _ _ hlt]
      by_cases h : j = i.toNat % 64
      · rw [h, hb]; simp
      · simp [h]
    rw [this]; rfl
  · have : w &&& (1 : W) <<< (i.toNat % 64) ≠ 0 := by
      intro h0
      have := congrArg (fun x : W => x.getLsbD (i.toNat % 64)) h0
      simp only [BitVec.getLsbD_and, getLsbD_one_shl _ _ hlt, hb] at this
      simp at this
    exact bne_iff_ne.2 this

section
variable (g : Cfg) (c : Nat) (b i : W) (m : Machine)

theorem run_readBitmapBit (h : okAddr g (bitWordA b i) = true) :
    run g c (readBitmapBit b i) m = some ((m.mem (bitWordA b i).toNat).getLsbD (i.toNat % 64), m) := by
  rw [readBitmapBit, run_bind]
  change (run g c (load (bitWordA b i)) m).bind _ = _
  rw [run_load _ _ _ _ h]
  simp only [Option.bind_some, run_pure, and_bitmapMask]

theorem run_readBitmapBit_none (h : okAddr g (bitWordA b i) = false) : run g c (readBitmapBit b i) m = none := by
  rw [readBitmapBit, run_bind]
  change (run g c (load (bitWordA b i)) m).bind _ = _
  simp [load, act, run, exec, h]

theorem run_setBitmapBit (v : Bool) (h : okAddr g (bitWordA b i) = true) :
    run g c (setBitmapBit b i v) m =
      some ((), m.st (bitWordA b i).toNat (setBit (m.mem (bitWordA b i).toNat) (i.toNat % 64) v)) := by
  unfold setBitmapBit
  simp only
  rw [show b + bitmapOffset i * 8 = bitWordA b i from rfl, run_bind, run_load _ _ _ _ h]
  simp only [Option.bind_some, run_ite, run_store _ _ _ _ _ h, setBit, bitmapMask, mod64_toNat]
  cases v <;> rfl

theorem run_setBitmapBit_none (v : Bool) (h : okAddr g (bitWordA b i) = false) : run g c (setBitmapBit b i v) m = none := by
  unfold setBitmapBit
  simp only
  rw [show b + bitmapOffset i * 8 = bitWordA b i from rfl, run_bind]
  simp [load, act, run, exec, h]
end

theorem bitWordA_inj {b i j : W} (h : bitWordA b i = bitWordA b j) : i.toNat / 64 = j.toNat / 64 := by
  have h1 : bitmapOffset i * 8 = bitmapOffset j * 8 := by
    have := congrArg (fun x => x - b) h
    simpa [bitWordA, BitVec.add_comm b, BitVec.add_sub_cancel] using this
  have h2 := congrArg BitVec.toNat h1
  simp only [BitVec.toNat_mul, bitmapOffset, div64_toNat, show (8 : W).toNat = 8 from rfl] at h2
  have := i.isLt
  have := j.isLt
  omega

/-! The OS bitmap. -/

variable {g : Cfg}

theorem osWordA_toNat (h : g.WF) {r : W} (hr : r.toNat < g.regions) : (bitWordA g.osBitmap r).toNat = osWordA g r.toNat := by
  obtain ⟨h1, h2, h3, h4, h5, h6, h7, h8, h9, h10, h11, h12⟩ := h.layout
  simp only [bitWordA, bitmapOffset, osWordA, BitVec.toNat_add, BitVec.toNat_mul, div64_toNat, show (8 : W).toNat = 8 from rfl]
  omega

theorem osWord_ok (h : g.WF) {r : W} (hr : r.toNat < g.regions) : okAddr g (bitWordA g.osBitmap r) = true := by
  obtain ⟨h1, h2, h3, h4, h5, h6, h7, h8, h9, h10, h11, h12⟩ := h.layout
  rw [okAddr_iff, osWordA_toNat h hr, osWordA]
  omega

/-- The OS bitmap with the bit of region `i` replaced. -/
def Machine.setOsBit (m : Machine) (g : Cfg) (i : Nat) (v : Bool) : Machine :=
  m.st (osWordA g i) (setBit (m.mem (osWordA g i)) (i % 64) v)

theorem run_setOsBit (h : g.WF) {r : W} (hr : r.toNat < g.regions) (c : Nat) (v : Bool) (m : Machine) :
    run g c (setBitmapBit g.osBitmap r v) m = some ((), m.setOsBit g r.toNat v) := by
  rw [run_setBitmapBit _ _ _ _ _ _ (osWord_ok h hr), osWordA_toNat h hr]; rfl

theorem osBit_setOsBit (m : Machine) (i j : Nat) (v : Bool) :
    (m.setOsBit g i v).osBit g j = if j = i then v else m.osBit g j := by
  unfold Machine.setOsBit Machine.osBit
  rw [st_mem, upd_apply]
  by_cases hw : osWordA g j = osWordA g i
  · rw [if_pos hw, hw, getLsbD_setBit _ _ _ _ (Nat.mod_lt _ (by decide)) (Nat.mod_lt _ (by decide))]
    unfold osWordA at hw
    by_cases hij : j = i
    · subst hij; simp
    · rw [if_neg hij, if_neg]; omega
  · rw [if_neg hw, if_neg]
    rintro rfl; exact hw rfl

end Sanctum
