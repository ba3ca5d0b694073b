import Verif.Lemmas.Bitmap
import Verif.Model.PageTables
import Verif.Props.Geometry
/-
Properties C05, C06, C43: page-table entries, the software walk, the enclave virtual range check.
-/
namespace Sanctum
open Machine

/-! ### C05 -/

theorem pte_low_mask : (pageSize - 1).toNat = 2 ^ 12 - 1 := by decide

theorem pteValue_getLsbD (t a : W) (ht : t.toNat % 4096 = 0) (i : Nat) (hi : i < 64) :
    (pteValue t a).getLsbD i = if i = 0 then true else if i < 12 then a.getLsbD i else t.getLsbD i := by
  have hmask : (pageSize - 1).getLsbD i = decide (i < 12) := by
    rw [BitVec.getLsbD, pte_low_mask, Nat.testBit_two_pow_sub_one]
  have hone : (1 : W).getLsbD i = decide (i = 0) := by
    rw [show (1 : W) = 1#64 from rfl, BitVec.getLsbD_one]; simp [hi]
  have htlow : i < 12 → t.getLsbD i = false := by
    intro h
    rw [BitVec.getLsbD, show t.toNat = 2 ^ 12 * (t.toNat / 4096) by omega, Nat.testBit_two_pow_mul]
    simp [Nat.not_le.2 h]
  rw [pteValue, BitVec.getLsbD_or, BitVec.getLsbD_or, BitVec.getLsbD_and, hmask, hone]
  by_cases h0 : i = 0
  · subst h0; simp
  · by_cases h12 : i < 12
    · simp [h0, h12, htlow h12]
    · simp [h0, h12]

/-- C05. After writing an entry with a page-aligned target, it is valid, its target is exactly the target
written, its ACL bits are the caller's low 12 bits with the valid bit forced on, no other word changes. -/
theorem C05_pte_round_trip (g : Cfg) (c : Nat) (entryAddr target acl : W) (m m' : Machine) (ht : target.toNat % 4096 = 0)
    (h : run g c (writePte entryAddr target acl) m = some ((), m')) :
    run g c (isValidPte entryAddr) m' = some (true, m') ∧
    run g c (pteTarget entryAddr) m' = some (target, m') ∧
    (∀ i, i < 12 → (m'.mem entryAddr.toNat).getLsbD i = (decide (i = 0) || acl.getLsbD i)) ∧
    m' = { m with mem := upd m.mem entryAddr.toNat (m'.mem entryAddr.toNat) } := by
  by_cases hok : okAddr g entryAddr = true
  · rw [writePte, run_store _ _ _ _ _ hok] at h
    injection h with h
    injection h with _ h
    subst h
    have hv := pteValue_getLsbD target acl ht
    refine ⟨?_, ?_, ?_, ?_⟩
    · rw [isValidPte, run_bind, run_load _ _ _ _ hok]
      simp only [Option.bind_some, run_pure, st_mem, upd_same]
      have : (pteValue target acl &&& 1) ≠ 0 := by
        intro h0
        have h1 := congrArg (fun x : W => x.getLsbD 0) h0
        simp only [BitVec.getLsbD_and, hv 0 (by decide), if_true, Bool.true_and] at h1
        revert h1; decide
      rw [bne_iff_ne.2 this]
    · rw [pteTarget, run_bind, run_load _ _ _ _ hok]
      simp only [Option.bind_some, run_pure, st_mem, upd_same]
      congr 2
      apply BitVec.eq_of_getLsbD_eq
      intro i hi
      have hmask : pteTargetMask.getLsbD i = decide (12 ≤ i) := by
        rw [pteTargetMask, BitVec.getLsbD_not, BitVec.getLsbD, pte_low_mask, Nat.testBit_two_pow_sub_one]
        by_cases h12 : i < 12 <;> simp [h12, hi] <;> omega
      rw [BitVec.getLsbD_and, hmask, hv i hi]
      by_cases h12 : i < 12
      · have : target.getLsbD i = false := by
          rw [BitVec.getLsbD, show target.toNat = 2 ^ 12 * (target.toNat / 4096) by omega, Nat.testBit_two_pow_mul]
          simp [Nat.not_le.2 h12]
        simp [this, Nat.not_le.2 h12]
      · simp [h12, Nat.not_lt.1 h12, show i ≠ 0 by omega]
    · intro i hi
      rw [st_mem, upd_same, hv i (by omega)]
      by_cases h0 : i = 0 <;> simp [h0, hi]
    · simp [Machine.st]
  · rw [Bool.not_eq_true] at hok
    simp [writePte, store, run, exec, hok] at h

example : (0x5000 : W).toNat % 4096 = 0 ∧ ∃ m', run (booted toyPlatform).1 0 (writePte 0x9008 0x5000 0xfffffffffffffff6) (booted toyPlatform).2 = some ((), m') :=
  ⟨by decide, _, run_store _ _ _ _ _ (by set_option maxRecDepth 100000 in decide +kernel)⟩

/-! ### C06 -/

/-- `page_table_shift(l)`. -/
def PtGeom.shift (p : PtGeom) (l : Nat) : Nat := (p.levels.getD l (0, 0)).1
/-- `page_table_entry_shift(l)`. -/
def PtGeom.entryShift (p : PtGeom) (l : Nat) : Nat := (p.levels.getD l (0, 0)).2
/-- The lowest virtual address bit that level `l` translates: the page offset and the bits of the levels
below come before it. -/
def PtGeom.lowBit (p : PtGeom) (l : Nat) : Nat := 12 + ((p.levels.take l).map Prod.fst).sum
/-- The slice of the virtual address that selects the entry at level `l`. -/
def PtGeom.slice (p : PtGeom) (va : W) (l : Nat) : Nat := va.toNat / 2 ^ p.lowBit l % 2 ^ p.shift l

/-- The table an entry points to: the entry without its low 12 bits. -/
def entryTable (e : W) : W := BitVec.ofNat 64 (e.toNat / 4096 * 4096)
/-- The valid bit of an entry. -/
def entryValid (e : W) : Prop := e.getLsbD 0 = true

/-- `Reaches p mem root va l e`: following the tables from `root` for the address `va`, the entry of level
`l` is at address `e`. The walk starts at the top level and goes down through valid entries. -/
inductive Reaches (p : PtGeom) (mem : Nat → W) (root va : W) : Nat → W → Prop
  | top {l : Nat} : l + 1 = p.levels.length →
      Reaches p mem root va l (root + BitVec.ofNat 64 (p.slice va l * 2 ^ p.entryShift l))
  | down {l : Nat} {e : W} : Reaches p mem root va (l + 1) e → entryValid (mem e.toNat) →
      Reaches p mem root va l (entryTable (mem e.toNat) + BitVec.ofNat 64 (p.slice va l * 2 ^ p.entryShift l))

theorem Reaches.lt {p : PtGeom} {mem : Nat → W} {root va : W} {l : Nat} {e : W} (h : Reaches p mem root va l e) :
    l < p.levels.length := by
  induction h with
  | top h => omega
  | down _ _ ih => omega

/-- There is at most one entry at each level. -/
theorem Reaches.unique {p : PtGeom} {mem : Nat → W} {root va : W} {l : Nat} {e e' : W} (h : Reaches p mem root va l e)
    (h' : Reaches p mem root va l e') : e = e' := by
  induction h generalizing e' with
  | top hl =>
      cases h' with
      | top => rfl
      | down h2 _ => have := h2.lt; omega
  | down h1 _ ih =>
      cases h' with
      | top hl => have := h1.lt; omega
      | down h2 _ => rw [ih h2]

/-- An entry is reached only through valid entries. -/
theorem Reaches.above_valid {p : PtGeom} {mem : Nat → W} {root va : W} {l l' : Nat} {e e' : W} (h : Reaches p mem root va l e)
    (hl : l < l') (h' : Reaches p mem root va l' e') : entryValid (mem e'.toNat) := by
  induction h generalizing l' e' with
  | top hl => have := h'.lt; omega
  | @down l e1 h1 hv ih =>
      by_cases heq : l' = l + 1
      · subst heq; rw [← h1.unique h']; exact hv
      · exact ih (by omega) h'

/-- The current table of the walk, about to select the entry of level `k - 1`. -/
def Table (p : PtGeom) (mem : Nat → W) (root va : W) (k : Nat) (table : W) : Prop :=
  (k = p.levels.length ∧ table = root) ∨ ∃ e, Reaches p mem root va k e ∧ entryValid (mem e.toNat) ∧ table = entryTable (mem e.toNat)

theorem Table.entry {p : PtGeom} {mem : Nat → W} {root va : W} {l : Nat} {table : W} (h : Table p mem root va (l + 1) table) :
    Reaches p mem root va l (table + BitVec.ofNat 64 (p.slice va l * 2 ^ p.entryShift l)) := by
  rcases h with ⟨h1, rfl⟩ | ⟨e, h1, h2, rfl⟩
  · exact .top h1
  · exact .down h1 h2

theorem valid_bit (w : W) : ((w &&& 1) != 0) = w.getLsbD 0 := by
  have := and_bitmapMask w 0
  simpa [bitmapMask] using this

theorem and_targetMask (w : W) : w &&& pteTargetMask = entryTable w := by
  have h1 : w &&& pteTargetMask = w - (w &&& (pageSize - 1)) := by
    have hadd : (w &&& pteTargetMask) + (w &&& (pageSize - 1)) = w := by
      rw [BitVec.add_eq_or_of_and_eq_zero]
      · rw [← BitVec.and_or_distrib_left]
        have : pteTargetMask ||| (pageSize - 1) = BitVec.allOnes 64 := by decide
        rw [this, BitVec.and_allOnes]
      · apply BitVec.eq_of_getLsbD_eq
        intro i hi
        simp only [BitVec.getLsbD_and, BitVec.getLsbD_not, pteTargetMask]
        cases (pageSize - 1).getLsbD i <;> simp
    exact (BitVec.eq_sub_iff_add_eq).2 hadd
  have h2 := w.isLt
  rw [h1, W.eq_iff, BitVec.toNat_sub, and_mask_toNat _ _ (k := 12) pte_low_mask, entryTable, BitVec.toNat_ofNat]
  omega

theorem slice_offset (va : W) (lo shift es : Nat) :
    ((va >>> lo) &&& BitVec.ofNat 64 (2 ^ shift - 1)) <<< es = BitVec.ofNat 64 (va.toNat / 2 ^ lo % 2 ^ shift * 2 ^ es) := by
  have h1 : ((va >>> lo) &&& BitVec.ofNat 64 (2 ^ shift - 1)).toNat = va.toNat / 2 ^ lo % 2 ^ shift := by
    apply Nat.eq_of_testBit_eq
    intro i
    rw [BitVec.toNat_and, BitVec.toNat_ushiftRight, BitVec.toNat_ofNat, Nat.testBit_and, Nat.testBit_mod_two_pow,
      Nat.testBit_two_pow_sub_one, Nat.testBit_mod_two_pow, Nat.shiftRight_eq_div_pow]
    by_cases hi : i < 64
    · simp [hi, Bool.and_comm]
    · have : (va.toNat / 2 ^ lo).testBit i = false := by
        apply Nat.testBit_lt_two_pow
        apply Nat.lt_of_le_of_lt (Nat.div_le_self _ _)
        exact Nat.lt_of_lt_of_le va.isLt (Nat.pow_le_pow_right (by decide) (by omega))
      simp [this]
  rw [W.eq_iff, BitVec.toNat_shiftLeft, h1, BitVec.toNat_ofNat, Nat.shiftLeft_eq]

/-- What a completed walk means. -/
def WalkResult (p : PtGeom) (mem : Nat → W) (root va : W) (level : Nat) (e : W) : Prop :=
  Reaches p mem root va level e ∨
  (e = 0 ∧ ∃ l e', level < l ∧ Reaches p mem root va l e' ∧ ¬ entryValid (mem e'.toNat))

theorem walkLoop_spec (g : Cfg) (c : Nat) (p : PtGeom) (m : Machine) (root va : W) (level : Nat) (k : Nat) :
    ∀ table, level < k → k ≤ p.levels.length → Table p m.mem root va k table →
    (∀ e m', run g c (walkLoop va level (p.levels.take k).reverse (p.lowBit k) table) m = some (e, m') →
      m' = m ∧ WalkResult p m.mem root va level e) ∧
    ((∀ l e, level < l → Reaches p m.mem root va l e → okAddr g e = true) →
      ∃ e, run g c (walkLoop va level (p.levels.take k).reverse (p.lowBit k) table) m = some (e, m)) := by
  induction k with
  | zero => intro table h; omega
  | succ k ih =>
      intro table hlev hk htab
      have hk' : k < p.levels.length := by omega
      have hentry := htab.entry
      have hget : p.levels[k]? = some (p.shift k, p.entryShift k) := by
        simp [PtGeom.shift, PtGeom.entryShift, List.getD_eq_getElem?_getD, hk']
      have hrev : (p.levels.take (k + 1)).reverse = (p.shift k, p.entryShift k) :: (p.levels.take k).reverse := by
        rw [List.take_add_one, hget]; simp
      have hlow : p.lowBit (k + 1) - p.shift k = p.lowBit k := by
        unfold PtGeom.lowBit
        rw [List.take_add_one, hget]; simp; omega
      have hlen : ((p.levels.take k).reverse).length = k := by simp; omega
      rw [hrev]
      simp only [walkLoop, hlow, hlen]
      rw [slice_offset]
      change (∀ e m', run g c (if k = level then pure (table + BitVec.ofNat 64 (p.slice va k * 2 ^ p.entryShift k)) else _) m = _ → _) ∧
        (_ → ∃ e, run g c (if k = level then pure (table + BitVec.ofNat 64 (p.slice va k * 2 ^ p.entryShift k)) else _) m = _)
      change Reaches p m.mem root va k _ at hentry
      generalize hea : table + BitVec.ofNat 64 (p.slice va k * 2 ^ p.entryShift k) = ea at *
      have hea' : table + BitVec.ofNat 64 (va.toNat / 2 ^ p.lowBit k % 2 ^ p.shift k * 2 ^ p.entryShift k) = ea := hea
      rw [hea']
      by_cases hkl : k = level
      · subst hkl
        simp only [if_true, run_pure]
        refine ⟨fun e m' he => ?_, fun _ => ⟨ea, rfl⟩⟩
        injection he with he
        injection he with h1 h2
        subst h1; subst h2
        exact ⟨rfl, Or.inl hentry⟩
      · simp only [if_neg hkl, run_bind, isValidPte, pteTarget]
        by_cases hok : okAddr g ea = true
        · simp only [run_load _ _ _ _ hok, Option.bind_some, run_pure, valid_bit]
          by_cases hv : (m.mem ea.toNat).getLsbD 0 = true
          · simp only [hv, if_true, run_bind, run_load _ _ _ _ hok, Option.bind_some, run_pure, and_targetMask]
            exact ih _ (by omega) (by omega) (Or.inr ⟨ea, hentry, hv, rfl⟩)
          · rw [Bool.not_eq_true] at hv
            simp only [hv, Bool.false_eq_true, if_false, run_pure]
            refine ⟨fun e m' he => ?_, fun _ => ⟨0, rfl⟩⟩
            injection he with he
            injection he with h1 h2
            subst h1; subst h2
            exact ⟨rfl, Or.inr ⟨rfl, k, ea, by omega, hentry, by unfold entryValid; rw [hv]; decide⟩⟩
        · have hnone : run g c (load ea) m = none := by
            simp [load, act, run, exec, hok]
          simp only [hnone, Option.bind_none]
          refine ⟨fun e m' he => (by simp at he), fun hall => ?_⟩
          exact absurd (hall k ea (by omega) hentry) hok

theorem lowBit_length (p : PtGeom) : p.lowBit p.levels.length = translatedBits p := by
  simp [PtGeom.lowBit, translatedBits, pageShift]

/-- C06. A walk to `level` (below the number of levels) changes nothing. With no root it returns 0.
Otherwise it returns the address of *the* entry reached at that level if there is one, and 0 if an
intermediate entry is not valid; the two cases exclude each other. It completes if the intermediate entries
are in DRAM. -/
theorem C06_walk (g : Cfg) (c : Nat) (p : PtGeom) (m : Machine) (root va : W) (level : Nat) (hl : level < p.levels.length) :
    (root = 0 → run g c (walkToEntry p root va level) m = some (0, m)) ∧
    (root ≠ 0 → ∀ e m', run g c (walkToEntry p root va level) m = some (e, m') →
      m' = m ∧
      (∀ e', Reaches p m.mem root va level e' → e = e') ∧
      ((¬ ∃ e', Reaches p m.mem root va level e') → e = 0) ∧
      ((∃ e', Reaches p m.mem root va level e') ↔
        ∀ l e', level < l → Reaches p m.mem root va l e' → entryValid (m.mem e'.toNat))) ∧
    ((∀ l e, level < l → Reaches p m.mem root va l e → okAddr g e = true) →
      ∃ e, run g c (walkToEntry p root va level) m = some (e, m)) := by
  refine ⟨?_, ?_, ?_⟩
  · rintro rfl; simp [walkToEntry]
  · intro hr e m' he
    rw [walkToEntry, if_neg hr] at he
    have := (walkLoop_spec g c p m root va level p.levels.length root hl (Nat.le_refl _) (Or.inl ⟨rfl, rfl⟩)).1 e m'
    rw [List.take_length, lowBit_length] at this
    obtain ⟨h1, h2⟩ := this he
    refine ⟨h1, ?_, ?_, ?_⟩
    · intro e' he'
      rcases h2 with h2 | ⟨_, l, e2, h3, h4, h5⟩
      · exact h2.unique he'
      · exact absurd (he'.above_valid h3 h4) h5
    · intro hno
      rcases h2 with h2 | ⟨h2, _⟩
      · exact absurd ⟨e, h2⟩ hno
      · exact h2
    · constructor
      · rintro ⟨e', he'⟩ l e2 h3 h4; exact he'.above_valid h3 h4
      · intro hall
        rcases h2 with h2 | ⟨_, l, e2, h3, h4, h5⟩
        · exact ⟨e, h2⟩
        · exact absurd (hall l e2 h3 h4) h5
  · intro hok
    rw [walkToEntry]
    by_cases hr : root = 0
    · exact ⟨0, by simp [hr]⟩
    · rw [if_neg hr]
      have := (walkLoop_spec g c p m root va level p.levels.length root hl (Nat.le_refl _) (Or.inl ⟨rfl, rfl⟩)).2 hok
      rw [List.take_length, lowBit_length] at this
      exact this

/-- C06. If no page table is at physical page 0 (which holds the monitor), a walk returns 0 exactly when
the root is unset or an intermediate entry is not valid. -/
theorem C06_walk_zero_iff (g : Cfg) (c : Nat) (p : PtGeom) (m : Machine) (root va : W) (level : Nat) (hl : level < p.levels.length)
    (hentry : ∀ e, Reaches p m.mem root va level e → e ≠ 0) (e : W) (m' : Machine)
    (he : run g c (walkToEntry p root va level) m = some (e, m')) :
    e = 0 ↔ (root = 0 ∨ ∃ l e', level < l ∧ Reaches p m.mem root va l e' ∧ ¬ entryValid (m.mem e'.toNat)) := by
  obtain ⟨h1, h2, _⟩ := C06_walk g c p m root va level hl
  by_cases hr : root = 0
  · rw [h1 hr] at he
    injection he with he
    injection he with he
    simp [hr, ← he]
  · obtain ⟨_, h3, h4, h5⟩ := h2 hr e m' he
    constructor
    · intro h0
      right
      apply Classical.byContradiction
      intro hno
      obtain ⟨e', he'⟩ := h5.2 (fun l e' h6 h7 => Classical.byContradiction (fun h8 => hno ⟨l, e', h6, h7, h8⟩))
      exact hentry e' he' ((h3 e' he').symm.trans h0)
    · rintro (h0 | ⟨l, e', h6, h7, h8⟩)
      · exact absurd h0 hr
      · exact h4 (fun ⟨e2, he2⟩ => h8 (he2.above_valid h6 h7))

/-- C06. Two virtual addresses with the same translated bits walk identically: the very same actions. -/
theorem C06_same_translated_bits (p : PtGeom) (root va va' : W) (level : Nat)
    (h : va.toNat % 2 ^ translatedBits p / 4096 = va'.toNat % 2 ^ translatedBits p / 4096) :
    walkToEntry p root va level = walkToEntry p root va' level := by
  have key : ∀ k table, k ≤ p.levels.length → walkLoop va level (p.levels.take k).reverse (p.lowBit k) table =
      walkLoop va' level (p.levels.take k).reverse (p.lowBit k) table := by
    intro k
    induction k with
    | zero => intro table _; rfl
    | succ k ih =>
        intro table hk
        have hk' : k < p.levels.length := by omega
        have hget : p.levels[k]? = some (p.shift k, p.entryShift k) := by
          simp [PtGeom.shift, PtGeom.entryShift, List.getD_eq_getElem?_getD, hk']
        have hrev : (p.levels.take (k + 1)).reverse = (p.shift k, p.entryShift k) :: (p.levels.take k).reverse := by
          rw [List.take_add_one, hget]; simp
        have hlow : p.lowBit (k + 1) = p.lowBit k + p.shift k := by
          unfold PtGeom.lowBit
          rw [List.take_add_one, hget]; simp; omega
        have hbits : p.lowBit k + p.shift k ≤ translatedBits p := by
          rw [← hlow, ← lowBit_length]
          unfold PtGeom.lowBit
          have : ((p.levels.take (k + 1)).map Prod.fst).sum ≤ (p.levels.map Prod.fst).sum := by
            have e1 := List.take_append_drop (k + 1) p.levels
            have e2 : (p.levels.map Prod.fst).sum = ((p.levels.take (k + 1)).map Prod.fst).sum + ((p.levels.drop (k + 1)).map Prod.fst).sum := by
              rw [← List.sum_append, ← List.map_append, e1]
            omega
          rw [List.take_length]; omega
        have h12 : 12 ≤ p.lowBit k := by unfold PtGeom.lowBit; omega
        have hsl : va.toNat / 2 ^ p.lowBit k % 2 ^ p.shift k = va'.toNat / 2 ^ p.lowBit k % 2 ^ p.shift k := by
          apply Nat.eq_of_testBit_eq
          intro i
          rw [Nat.testBit_mod_two_pow, Nat.testBit_mod_two_pow, Nat.testBit_div_two_pow, Nat.testBit_div_two_pow]
          by_cases hi : i < p.shift k
          · have h3 := congrArg (fun x => Nat.testBit x (i + p.lowBit k - 12)) h
            simp only [show (4096 : Nat) = 2 ^ 12 from rfl, Nat.testBit_div_two_pow, Nat.testBit_mod_two_pow,
              show i + p.lowBit k - 12 + 12 = i + p.lowBit k by omega] at h3
            have h4 : i + p.lowBit k < translatedBits p := by omega
            simp only [h4, decide_true, Bool.true_and] at h3
            simp [hi, h3]
          · simp [hi]
        rw [hrev]
        simp only [walkLoop, show p.lowBit (k + 1) - p.shift k = p.lowBit k by omega, slice_offset, hsl, ih _ (by omega)]
  rw [walkToEntry, walkToEntry]
  have := key p.levels.length root (Nat.le_refl _)
  rw [List.take_length, lowBit_length] at this
  rw [this]

/-- C06. The complete walk returns the page the leaf entry points to, or 0 if there is no valid leaf. -/
theorem C06_full_walk (g : Cfg) (c : Nat) (p : PtGeom) (m : Machine) (root va : W) (hl : 0 < p.levels.length) (hr : root ≠ 0) (t : W)
    (m' : Machine) (ht : run g c (walkPageTables p root va) m = some (t, m')) :
    m' = m ∧ (∀ e, e ≠ 0 → Reaches p m.mem root va 0 e → entryValid (m.mem e.toNat) → t = entryTable (m.mem e.toNat)) ∧
    ((¬ ∃ e, Reaches p m.mem root va 0 e ∧ entryValid (m.mem e.toNat)) → t = 0) := by
  rw [walkPageTables, run_bind] at ht
  cases hw : run g c (walkToEntry p root va 0) m with
  | none => rw [hw] at ht; simp at ht
  | some x =>
      obtain ⟨e, m1⟩ := x
      obtain ⟨rfl, h3, h4, h5⟩ := (C06_walk g c p m root va 0 hl).2.1 hr e m1 hw
      rw [hw, Option.bind_some] at ht
      simp only at ht
      by_cases he : e = 0
      · rw [if_pos he, run_pure] at ht
        injection ht with ht
        injection ht with h6 h7
        refine ⟨h7.symm, fun e' hne he' _ => absurd ((h3 e' he').symm.trans he) hne, fun _ => h6.symm⟩
      · rw [if_neg he] at ht
        simp only [run_bind, isValidPte, pteTarget] at ht
        by_cases hok : okAddr g e = true
        · simp only [run_load _ _ _ _ hok, Option.bind_some, run_pure, valid_bit] at ht
          have hreach : Reaches p m1.mem root va 0 e := by
            apply Classical.byContradiction
            intro hno
            apply he
            apply h4
            rintro ⟨e', he'⟩
            rw [h3 e' he'] at hno
            exact hno he'
          by_cases hv : (m1.mem e.toNat).getLsbD 0 = true
          · simp only [hv, if_true, run_bind, run_load _ _ _ _ hok, Option.bind_some, run_pure, and_targetMask] at ht
            injection ht with ht
            injection ht with h6 h7
            refine ⟨h7.symm, fun e' _ he' _ => ?_, fun hno => absurd ⟨e, hreach, hv⟩ hno⟩
            rw [← h3 e' he']; exact h6.symm
          · rw [Bool.not_eq_true] at hv
            simp only [hv, Bool.false_eq_true, if_false, run_pure] at ht
            injection ht with ht
            injection ht with h6 h7
            refine ⟨h7.symm, fun e' _ he' hv' => ?_, fun _ => h6.symm⟩
            rw [← h3 e' he', entryValid, hv] at hv'
            cases hv'
        · have hnone : run g c (load e) m1 = none := by simp [load, act, run, exec, hok]
          simp [hnone] at ht

/-- A three-level walk (test architecture) through two valid entries. -/
example : Reaches testGeom (upd (upd (fun _ => 0) 0xa010 0xb001) 0xb030 0xc001) 0xa000 0x80604000 0 0xc020 := by
  have h2 := Reaches.top (p := testGeom) (mem := upd (upd (fun _ => (0 : W)) 0xa010 0xb001) 0xb030 0xc001) (root := 0xa000) (va := 0x80604000) (l := 2) rfl
  have h1 := Reaches.down h2 (show BitVec.getLsbD _ 0 = true by decide)
  have h0 := Reaches.down h1 (show BitVec.getLsbD _ 0 = true by decide)
  exact h0

/-! ### C43 -/

/-- The full C43: the check on the enclave record at `e` accepts exactly the addresses of the range. -/
def C43_statement : Prop := ∀ (g : Cfg) (c : Nat) (m : Machine) (e va : W) (b : Bool) (m' : Machine),
  isValidRange (m.mem (e + offEvBase).toNat) (m.mem (e + offEvMask).toNat) = true →
  run g c (isEnclaveVirtualAddress va e) m = some (b, m') →
  (b = true ↔ (m.mem (e + offEvBase).toNat).toNat ≤ va.toNat ∧
    va.toNat ≤ (m.mem (e + offEvBase).toNat).toNat + (m.mem (e + offEvMask).toNat).toNat)

/-- What the check computes for a valid range: the address is a multiple of the range size and the range
starts at 0. -/
theorem C43_check_exact_partial (g : Cfg) (c : Nat) (m : Machine) (e va : W) (b : Bool) (m' : Machine)
    (hv : isValidRange (m.mem (e + offEvBase).toNat) (m.mem (e + offEvMask).toNat) = true)
    (h : run g c (isEnclaveVirtualAddress va e) m = some (b, m')) :
    m' = m ∧ (b = true ↔ m.mem (e + offEvBase).toNat = 0 ∧
      va.toNat % ((m.mem (e + offEvMask).toNat).toNat + 1) = 0) := by
  rw [isEnclaveVirtualAddress, run_bind] at h
  by_cases hok : okAddr g (e + offEvMask) = true
  · rw [run_load _ _ _ _ hok, Option.bind_some, run_bind] at h
    by_cases hok2 : okAddr g (e + offEvBase) = true
    · rw [run_load _ _ _ _ hok2, Option.bind_some, run_pure] at h
      generalize m.mem (e + offEvBase).toNat = base at *
      generalize m.mem (e + offEvMask).toNat = mask at *
      injection h with h
      injection h with h1 h2
      refine ⟨h2.symm, ?_⟩
      rw [isValidRange, Bool.and_eq_true, isValidRangeMask_iff] at hv
      obtain ⟨ha, k, hk, hm⟩ := hv
      have hdvd := (isAlignedToMask_iff base mask hm).1 ha
      have hpos := Nat.two_pow_pos k
      rw [← h1, beq_iff_eq, W.eq_iff, and_mask_toNat _ _ hm, hm, W.eq_iff, show (0 : W).toNat = 0 from rfl,
        show 2 ^ k - 1 + 1 = 2 ^ k by omega]
      have hlt := Nat.mod_lt va.toNat hpos
      simp only
      constructor
      · intro heq
        have : base.toNat = 0 := by
          rw [← heq] at hdvd ⊢
          exact Nat.eq_zero_of_dvd_of_lt hdvd hlt
        exact ⟨this, by omega⟩
      · rintro ⟨h3, h4⟩; omega
    · have hnone : run g c (load (e + offEvBase)) m = none := by simp [load, act, run, exec, hok2]
      simp [hnone] at h
  · have hnone : run g c (load (e + offEvMask)) m = none := by simp [load, act, run, exec, hok]
    simp [hnone] at h

/-- A machine with an enclave record at 0x9000 whose virtual range is [base, base + mask]. -/
def rangeMachine (base mask : W) : Machine := { zeroMachine with mem := upd (upd (fun _ => 0) 0x9030 base) 0x9038 mask }

/-- C43 is false: the range [0x10000, 0x10fff] rejects its own first address. -/
theorem C43_statement_false : ¬ C43_statement := by
  intro h
  have hrun : run (booted toyPlatform).1 0 (isEnclaveVirtualAddress 0x10000 0x9000) (rangeMachine 0x10000 0xfff) =
      some (false, rangeMachine 0x10000 0xfff) := by
    rw [isEnclaveVirtualAddress, run_bind, run_load _ _ _ _ (by set_option maxRecDepth 100000 in decide +kernel), Option.bind_some,
      run_bind, run_load _ _ _ _ (by set_option maxRecDepth 100000 in decide +kernel), Option.bind_some, run_pure]
    rfl
  have := (h _ _ _ _ _ _ _ (by decide) hrun).2 (by decide)
  cases this

/-- It also accepts addresses far outside: 0x7000 for the range [0, 0xfff]. -/
theorem C43_accepts_outside : (run (booted toyPlatform).1 0 (isEnclaveVirtualAddress 0x7000 0x9000) (rangeMachine 0 0xfff)).map Prod.fst = some true ∧
    isValidRange 0 0xfff = true := by
  set_option maxRecDepth 100000 in decide +kernel

end Sanctum
