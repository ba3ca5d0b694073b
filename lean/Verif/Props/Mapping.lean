import Verif.Props.PageTables
/-
Property C60: writing an entry maps exactly one page (or table), and the walk finds it.
-/
namespace Sanctum
open Machine

/-- The bits of `va` that select the entry of level `l`: those translated by level `l` and above. -/
def PtGeom.selector (p : PtGeom) (va : W) (l : Nat) : Nat := va.toNat % 2 ^ translatedBits p / 2 ^ p.lowBit l

/-- The tables form a tree: no entry is reached in two ways. -/
def TableTree (p : PtGeom) (mem : Nat → W) (root : W) : Prop := ∀ va va' l l' e, Reaches p mem root va l e → Reaches p mem root va' l' e →
  l = l' ∧ p.selector va l = p.selector va' l

theorem lowBit_mono (p : PtGeom) {l k : Nat} (h : l ≤ k) : p.lowBit l ≤ p.lowBit k := by
  unfold PtGeom.lowBit
  have e1 := List.take_append_drop l (p.levels.take k)
  have e2 : ((p.levels.take k).map Prod.fst).sum = (((p.levels.take k).take l).map Prod.fst).sum + (((p.levels.take k).drop l).map Prod.fst).sum := by
    rw [← List.sum_append, ← List.map_append, e1]
  rw [List.take_take, Nat.min_eq_left h] at e2
  omega

theorem lowBit_succ (p : PtGeom) {k : Nat} (hk : k < p.levels.length) : p.lowBit (k + 1) = p.lowBit k + p.shift k := by
  have hget : p.levels[k]? = some (p.shift k, p.entryShift k) := by
    simp [PtGeom.shift, PtGeom.entryShift, List.getD_eq_getElem?_getD, hk]
  unfold PtGeom.lowBit
  rw [List.take_add_one, hget]; simp; omega

theorem slice_of_selector (p : PtGeom) {va va' : W} {l k : Nat} (h : p.selector va l = p.selector va' l) (hl : l ≤ k) (hk : k < p.levels.length) :
    p.slice va k = p.slice va' k := by
  have h1 := lowBit_mono p hl
  have h2 : p.lowBit k + p.shift k ≤ translatedBits p := by
    rw [← lowBit_succ p hk, ← lowBit_length]
    exact lowBit_mono p hk
  unfold PtGeom.slice
  apply Nat.eq_of_testBit_eq
  intro i
  rw [Nat.testBit_mod_two_pow, Nat.testBit_mod_two_pow, Nat.testBit_div_two_pow, Nat.testBit_div_two_pow]
  by_cases hi : i < p.shift k
  · have h3 := congrArg (fun x => Nat.testBit x (i + p.lowBit k - p.lowBit l)) h
    simp only [PtGeom.selector, Nat.testBit_div_two_pow, Nat.testBit_mod_two_pow,
      show i + p.lowBit k - p.lowBit l + p.lowBit l = i + p.lowBit k by omega] at h3
    have h4 : i + p.lowBit k < translatedBits p := by omega
    simp only [h4, decide_true, Bool.true_and] at h3
    simp [hi, h3]
  · simp [hi]

/-- Addresses that agree on the selector of level `l` reach the same entries down to level `l`. -/
theorem Reaches.same {p : PtGeom} {mem : Nat → W} {root va va' : W} {l : Nat} (h : p.selector va l = p.selector va' l) {k : Nat} {e : W}
    (hr : Reaches p mem root va k e) : l ≤ k → Reaches p mem root va' k e := by
  induction hr with
  | @top k hk =>
      intro hl
      rw [slice_of_selector p h hl (by omega)]
      exact .top hk
  | @down k e1 h1 hv ih =>
      intro hl
      rw [slice_of_selector p h hl (by have := h1.lt; omega)]
      exact .down (ih (by omega)) hv

/-- C60. Every entry the walk uses lies in its table: the entry of level `l` is within the `page_table_size(l)` bytes from the address of the table (the root,
or what the entry above points to), at a multiple of the entry size. -/
theorem C60_entry_in_table {p : PtGeom} {mem : Nat → W} {root va e : W} {l : Nat} (h : Reaches p mem root va l e) :
    ∃ table, ((l + 1 = p.levels.length ∧ table = root) ∨ ∃ e', Reaches p mem root va (l + 1) e' ∧ entryValid (mem e'.toNat) ∧ table = entryTable (mem e'.toNat)) ∧
      (table.toNat + pageTableSize p l ≤ 2 ^ 64 → table.toNat ≤ e.toNat ∧ e.toNat + 2 ^ p.entryShift l ≤ table.toNat + pageTableSize p l ∧
        ∃ i, e.toNat = table.toNat + i * 2 ^ p.entryShift l) := by
  have key : ∀ table : W, table.toNat + pageTableSize p l ≤ 2 ^ 64 → ∀ e, e = table + BitVec.ofNat 64 (p.slice va l * 2 ^ p.entryShift l) →
      table.toNat ≤ e.toNat ∧ e.toNat + 2 ^ p.entryShift l ≤ table.toNat + pageTableSize p l ∧ ∃ i, e.toNat = table.toNat + i * 2 ^ p.entryShift l := by
    intro table ht e he
    have h1 : p.slice va l < 2 ^ p.shift l := Nat.mod_lt _ (Nat.two_pow_pos _)
    have h2 : (p.slice va l + 1) * 2 ^ p.entryShift l ≤ 2 ^ p.shift l * 2 ^ p.entryShift l := Nat.mul_le_mul_right _ h1
    have h3 : pageTableSize p l = 2 ^ p.shift l * 2 ^ p.entryShift l := rfl
    have h4 := Nat.two_pow_pos (p.entryShift l)
    rw [Nat.succ_mul] at h2
    have h5 : e.toNat = table.toNat + p.slice va l * 2 ^ p.entryShift l := by
      rw [he, BitVec.toNat_add, BitVec.toNat_ofNat, Nat.add_mod_mod, Nat.mod_eq_of_lt (by omega)]
    exact ⟨by omega, by omega, _, h5⟩
  cases h with
  | top hl => exact ⟨root, .inl ⟨hl, rfl⟩, fun ht => key root ht _ rfl⟩
  | down h1 hv => exact ⟨_, .inr ⟨_, h1, hv, rfl⟩, fun ht => key _ ht _ rfl⟩

/-- The tables of the two architectures are whole pages. -/
theorem C60_table_pages (l : Nat) (h : l < 3) : 4096 * pageTablePages testGeom l = pageTableSize testGeom l ∧ 4096 * pageTablePages riscvGeom l = pageTableSize riscvGeom l := by
  have : l = 0 ∨ l = 1 ∨ l = 2 := by omega
  rcases this with rfl | rfl | rfl <;> decide

/-- C60. Let the tables under `root` form a tree, and let `e` be the entry of level `l` for `va`. After `write_page_table_entry(e, l, target, acl)`:
every address that selects the entry `e` reaches it, finds it valid and pointing to `target`; every other address reaches the same entries
as before, with the same contents. -/
theorem C60_map {g : Cfg} {c : Nat} {p : PtGeom} {m m' : Machine} {root va e target acl : W} {l : Nat} (htree : TableTree p m.mem root)
    (hr : Reaches p m.mem root va l e) (ht : target.toNat % 4096 = 0) (h : run g c (writePte e target acl) m = some ((), m')) :
    (∀ va', p.selector va' l = p.selector va l → Reaches p m'.mem root va' l e ∧ entryValid (m'.mem e.toNat) ∧ entryTable (m'.mem e.toNat) = target) ∧
    (∀ va', p.selector va' l ≠ p.selector va l → ∀ k x, (Reaches p m'.mem root va' k x ↔ Reaches p m.mem root va' k x) ∧
      (Reaches p m.mem root va' k x → m'.mem x.toNat = m.mem x.toNat)) := by
  obtain ⟨h1, h2, -, h4⟩ := C05_pte_round_trip g c e target acl m m' ht h
  have hmem : ∀ x : W, x ≠ e → m'.mem x.toNat = m.mem x.toNat := by
    intro x hx
    rw [h4]
    exact upd_ne _ _ fun hh => hx ((W.eq_iff _ _).2 hh)
  have hok : okAddr g e = true := by
    rcases Classical.em (okAddr g e = true) with hh | hh
    · exact hh
    · exfalso
      rw [writePte] at h
      simp [store, run, exec, hh] at h
  have hvalid : entryValid (m'.mem e.toNat) := by
    rw [isValidPte, run_bind, run_load _ _ _ _ hok, Option.bind_some, run_pure, valid_bit] at h1
    simp only [Option.some.injEq, Prod.mk.injEq, and_true] at h1
    exact h1
  have htab : entryTable (m'.mem e.toNat) = target := by
    rw [pteTarget, run_bind, run_load _ _ _ _ hok, Option.bind_some, run_pure, and_targetMask] at h2
    simp only [Option.some.injEq, Prod.mk.injEq, and_true] at h2
    exact h2
  refine ⟨fun va' hs => ⟨?_, hvalid, htab⟩, fun va' hs => ?_⟩
  · have key : ∀ {k x}, Reaches p m.mem root va k x → l ≤ k → Reaches p m'.mem root va k x := by
      intro k x hk
      induction hk with
      | top hk => intro _; exact .top hk
      | @down k e1 h5 hv ih =>
          intro hl
          have hne : e1 ≠ e := by
            intro hh
            subst hh
            have := (htree _ _ _ _ _ h5 hr).1
            omega
          have := ih (by omega)
          rw [← hmem e1 hne] at hv ⊢
          exact .down this hv
    exact (key hr (Nat.le_refl _)).same hs.symm (Nat.le_refl _)
  · have hne : ∀ {k x}, Reaches p m.mem root va' k x → x ≠ e := by
      intro k x hk hh
      subst hh
      obtain ⟨h6, h7⟩ := htree _ _ _ _ _ hk hr
      subst h6
      exact hs h7
    intro k x
    refine ⟨⟨fun hk => ?_, fun hk => ?_⟩, fun hk => hmem x (hne hk)⟩
    · induction hk with
      | top hk => exact .top hk
      | @down k e1 h5 hv ih =>
          rw [hmem e1 (hne ih)] at hv ⊢
          exact .down ih hv
    · induction hk with
      | top hk => exact .top hk
      | @down k e1 h5 hv ih =>
          rw [← hmem e1 (hne h5)] at hv ⊢
          exact .down ih hv

/-- C60 for pages: after mapping the page of `va` to `target`, the complete walk of every address in that page returns `target`, and that of every other
address returns what it returned before. -/
theorem C60_map_page {g : Cfg} {c : Nat} {p : PtGeom} {m m' : Machine} {root va e target acl : W} (hl : 0 < p.levels.length) (hroot : root ≠ 0)
    (htree : TableTree p m.mem root) (hr : Reaches p m.mem root va 0 e) (he : e ≠ 0) (ht : target.toNat % 4096 = 0)
    (hup : ∀ l x, Reaches p m.mem root va l x → okAddr g x = true)
    (h : run g c (writePte e target acl) m = some ((), m')) :
    (∀ va', va'.toNat % 2 ^ translatedBits p / 4096 = va.toNat % 2 ^ translatedBits p / 4096 →
      run g c (walkPageTables p root va') m' = some (target, m')) ∧
    (∀ va' t, va'.toNat % 2 ^ translatedBits p / 4096 ≠ va.toNat % 2 ^ translatedBits p / 4096 → run g c (walkPageTables p root va') m = some (t, m) →
      run g c (walkPageTables p root va') m' = some (t, m')) := by
  obtain ⟨h1, h2⟩ := C60_map htree hr ht h
  have hsel : ∀ va : W, p.selector va 0 = va.toNat % 2 ^ translatedBits p / 4096 := by
    intro va
    simp [PtGeom.selector, PtGeom.lowBit]
  refine ⟨fun va' hva => ?_, fun va' t hva hrun => ?_⟩
  · obtain ⟨h5, h6, h7⟩ := h1 va' (by rw [hsel, hsel]; exact hva)
    have hall : ∀ l x, Reaches p m'.mem root va' l x → okAddr g x = true := by
      intro l x hx
      have key : ∀ {k y}, Reaches p m'.mem root va' k y → Reaches p m.mem root va k y := by
        intro k y hk
        induction hk with
        | @top k hk =>
            rw [← slice_of_selector p (va := va) (va' := va') (l := 0) (by rw [hsel, hsel]; exact hva.symm) (Nat.zero_le _) (by omega)]
            exact .top hk
        | @down k e1 h8 hv ih =>
            have hne : e1 ≠ e := by
              intro hh
              subst hh
              have := (htree _ _ _ _ _ ih hr).1
              omega
            have hm : m'.mem e1.toNat = m.mem e1.toNat := by
              obtain ⟨-, -, -, h9⟩ := C05_pte_round_trip g c e target acl m m' ht h
              rw [h9]
              exact upd_ne _ _ fun hh => hne ((W.eq_iff _ _).2 hh)
            rw [hm] at hv ⊢
            rw [← slice_of_selector p (va := va) (va' := va') (l := 0) (by rw [hsel, hsel]; exact hva.symm) (Nat.zero_le _) (by have := h8.lt; omega)]
            exact .down ih hv
      exact hup l x (key hx)
    obtain ⟨x, hx⟩ := (C06_walk g c p m' root va' 0 hl).2.2 (fun l x _ hx => hall l x hx)
    obtain ⟨-, h8, -, -⟩ := (C06_walk g c p m' root va' 0 hl).2.1 hroot x m' hx
    obtain rfl := h8 e h5
    have hok := hall 0 x h5
    rw [walkPageTables, run_bind, hx, Option.bind_some]
    dsimp only
    rw [if_neg he, run_bind, isValidPte, run_bind, run_load _ _ _ _ hok, Option.bind_some, run_pure, Option.bind_some, valid_bit]
    dsimp only
    rw [show (m'.mem x.toNat).getLsbD 0 = true from h6, if_pos rfl, pteTarget, run_bind, run_load _ _ _ _ hok, Option.bind_some, run_pure, and_targetMask, h7]
  · have hs : p.selector va' 0 ≠ p.selector va 0 := by rw [hsel, hsel]; exact hva
    have hcont := fun k x => (h2 va' hs k x).2
    -- the walk before
    have hrun' := hrun
    rw [walkPageTables, run_bind] at hrun'
    cases hw : run g c (walkToEntry p root va' 0) m with
    | none => rw [hw] at hrun'; cases hrun'
    | some y =>
        obtain ⟨x, m1⟩ := y
        obtain ⟨rfl, h3, h4, h5⟩ := (C06_walk g c p m root va' 0 hl).2.1 hroot x m1 hw
        -- the walk after reaches the same entry
        have hw' : run g c (walkToEntry p root va' 0) m' = some (x, m') := by
          rw [walkToEntry, if_neg hroot]
          rw [walkToEntry, if_neg hroot] at hw
          have key : ∀ k table, k ≤ p.levels.length → Table p m1.mem root va' k table → ∀ x, run g c (walkLoop va' 0 (p.levels.take k).reverse (p.lowBit k) table) m1 = some (x, m1) →
              run g c (walkLoop va' 0 (p.levels.take k).reverse (p.lowBit k) table) m' = some (x, m') := by
            intro k
            induction k with
            | zero => intro table _ _ x hh; cases hh
            | succ k ih =>
                intro table hk htab x hh
                have hk' : k < p.levels.length := by omega
                have hentry := htab.entry
                have hget : p.levels[k]? = some (p.shift k, p.entryShift k) := by
                  simp [PtGeom.shift, PtGeom.entryShift, List.getD_eq_getElem?_getD, hk']
                have hrev : (p.levels.take (k + 1)).reverse = (p.shift k, p.entryShift k) :: (p.levels.take k).reverse := by
                  rw [List.take_add_one, hget]; simp
                have hlow : p.lowBit (k + 1) - p.shift k = p.lowBit k := by rw [lowBit_succ p hk']; omega
                have hlen : ((p.levels.take k).reverse).length = k := by simp; omega
                rw [hrev] at hh ⊢
                simp only [walkLoop, hlow, hlen] at hh ⊢
                rw [slice_offset] at hh ⊢
                have hfold : va'.toNat / 2 ^ p.lowBit k % 2 ^ p.shift k = p.slice va' k := rfl
                rw [hfold] at hh ⊢
                generalize table + BitVec.ofNat 64 (p.slice va' k * 2 ^ p.entryShift k) = ea at *
                by_cases hkl : k = 0
                · rw [if_pos hkl, run_pure] at hh ⊢
                  simp only [Option.some.injEq, Prod.mk.injEq, and_true] at hh
                  rw [hh]
                · rw [if_neg hkl] at hh ⊢
                  have hokea : okAddr g ea = true := by
                    rcases Classical.em (okAddr g ea = true) with h5 | h5
                    · exact h5
                    · exfalso
                      have hnone : run g c (load ea) m1 = none := by simp [load, act, run, exec, h5]
                      rw [run_bind, isValidPte, run_bind, hnone] at hh
                      cases hh
                  have hsame := hcont k ea hentry
                  rw [run_bind, isValidPte, run_bind, run_load _ _ _ _ hokea, Option.bind_some, run_pure, Option.bind_some] at hh ⊢
                  rw [hsame]
                  dsimp only at hh ⊢
                  rw [valid_bit] at hh ⊢
                  by_cases hv : (m1.mem ea.toNat).getLsbD 0 = true
                  · rw [if_pos hv, run_bind, pteTarget, run_bind, run_load _ _ _ _ hokea, Option.bind_some, run_pure, Option.bind_some] at hh ⊢
                    dsimp only at hh ⊢
                    rw [hsame, and_targetMask]
                    rw [and_targetMask] at hh
                    exact ih _ (by omega) (Or.inr ⟨ea, hentry, hv, rfl⟩) x hh
                  · rw [if_neg hv, run_pure] at hh ⊢
                    simp only [Option.some.injEq, Prod.mk.injEq, and_true] at hh
                    rw [hh]
          have := key p.levels.length root (Nat.le_refl _) (Or.inl ⟨rfl, rfl⟩) x
          rw [List.take_length, lowBit_length] at this
          exact this hw
        rw [hw, Option.bind_some] at hrun'
        rw [walkPageTables, run_bind, hw', Option.bind_some]
        dsimp only at hrun' ⊢
        by_cases hx : x = 0
        · rw [if_pos hx, run_pure] at hrun' ⊢
          simp only [Option.some.injEq, Prod.mk.injEq, and_true] at hrun'
          rw [hrun']
        · rw [if_neg hx] at hrun' ⊢
          have hreach : Reaches p m1.mem root va' 0 x := by
            apply Classical.byContradiction
            intro hno
            apply hx
            apply h4
            rintro ⟨e', he'⟩
            rw [h3 e' he'] at hno
            exact hno he'
          have hokx : okAddr g x = true := by
            rcases Classical.em (okAddr g x = true) with h5 | h5
            · exact h5
            · exfalso
              have hnone : run g c (load x) m1 = none := by simp [load, act, run, exec, h5]
              rw [run_bind, isValidPte, run_bind, hnone] at hrun'
              cases hrun'
          have hsame := hcont 0 x hreach
          rw [run_bind, isValidPte, run_bind, run_load _ _ _ _ hokx, Option.bind_some, run_pure, Option.bind_some] at hrun' ⊢
          rw [hsame]
          dsimp only at hrun' ⊢
          rw [valid_bit] at hrun' ⊢
          by_cases hv : (m1.mem x.toNat).getLsbD 0 = true
          · rw [if_pos hv, pteTarget, run_bind, run_load _ _ _ _ hokx, Option.bind_some, run_pure] at hrun' ⊢
            rw [hsame]
            simp only [Option.some.injEq, Prod.mk.injEq, and_true] at hrun'
            rw [hrun']
          · rw [if_neg hv, run_pure] at hrun' ⊢
            simp only [Option.some.injEq, Prod.mk.injEq, and_true] at hrun'
            rw [hrun']

/-! ### An instance -/

/-- Three tables of the test architecture: the root at 0x20000, one table of level 1 at 0x30000, one leaf table at 0x40000. -/
def treeMem : Nat → W := upd (upd (fun _ => 0) 0x20010 0x30001) 0x30030 0x40001

theorem treeMem_valid (x : W) (h : entryValid (treeMem x.toNat)) :
    (x = 0x20010 ∧ entryTable (treeMem x.toNat) = 0x30000) ∨ (x = 0x30030 ∧ entryTable (treeMem x.toNat) = 0x40000) := by
  unfold treeMem at *
  rcases Classical.em (x.toNat = 0x30030) with h1 | h1
  · exact .inr ⟨(W.eq_iff _ _).2 h1, by rw [h1, upd_same]; decide⟩
  · rw [upd_ne _ _ h1] at h ⊢
    rcases Classical.em (x.toNat = 0x20010) with h2 | h2
    · exact .inl ⟨(W.eq_iff _ _).2 h2, by rw [h2, upd_same]; decide⟩
    · rw [upd_ne _ _ h2] at h
      exact absurd h (by unfold entryValid; decide)

theorem treeMem_reaches {va e : W} {l : Nat} (h : Reaches testGeom treeMem 0x20000 va l e) :
    (l = 2 ∧ e.toNat = 0x20000 + va.toNat / 2 ^ 31 % 2 ^ 11 * 16) ∨
    (l = 1 ∧ e.toNat = 0x30000 + va.toNat / 2 ^ 21 % 2 ^ 10 * 16 ∧ va.toNat / 2 ^ 31 % 2 ^ 11 = 1) ∨
    (l = 0 ∧ e.toNat = 0x40000 + va.toNat / 2 ^ 12 % 2 ^ 9 * 8 ∧ va.toNat / 2 ^ 21 % 2 ^ 10 = 3 ∧ va.toNat / 2 ^ 31 % 2 ^ 11 = 1) := by
  induction h with
  | @top l hl =>
      have : l = 2 := by have : testGeom.levels.length = 3 := rfl; omega
      subst this
      left
      refine ⟨rfl, ?_⟩
      have e1 : testGeom.slice va 2 = va.toNat / 2 ^ 31 % 2 ^ 11 := rfl
      have e2 : testGeom.entryShift 2 = 4 := rfl
      rw [e1, e2, BitVec.toNat_add, BitVec.toNat_ofNat, show (0x20000 : W).toNat = 0x20000 from rfl]
      omega
  | @down l e1 h1 hv ih =>
      have hv' := treeMem_valid e1 hv
      rcases ih with ⟨h2, h3⟩ | ⟨h2, h3, h4⟩ | ⟨h2, -⟩
      · obtain rfl : l = 1 := by omega
        right; left
        rcases hv' with ⟨h5, h6⟩ | ⟨h5, -⟩
        · rw [h6]
          rw [h5, show (0x20010 : W).toNat = 0x20010 from rfl] at h3
          have e1 : testGeom.slice va 1 = va.toNat / 2 ^ 21 % 2 ^ 10 := rfl
          have e2 : testGeom.entryShift 1 = 4 := rfl
          rw [e1, e2, BitVec.toNat_add, BitVec.toNat_ofNat, show (0x30000 : W).toNat = 0x30000 from rfl]
          exact ⟨rfl, by omega, by omega⟩
        · rw [h5, show (0x30030 : W).toNat = 0x30030 from rfl] at h3
          omega
      · obtain rfl : l = 0 := by omega
        right; right
        rcases hv' with ⟨h5, -⟩ | ⟨h5, h6⟩
        · rw [h5, show (0x20010 : W).toNat = 0x20010 from rfl] at h3
          omega
        · rw [h6]
          rw [h5, show (0x30030 : W).toNat = 0x30030 from rfl] at h3
          have e1 : testGeom.slice va 0 = va.toNat / 2 ^ 12 % 2 ^ 9 := rfl
          have e2 : testGeom.entryShift 0 = 3 := rfl
          rw [e1, e2, BitVec.toNat_add, BitVec.toNat_ofNat, show (0x40000 : W).toNat = 0x40000 from rfl]
          exact ⟨rfl, by omega, by omega, h4⟩
      · omega

theorem treeMem_tree : TableTree testGeom treeMem 0x20000 := by
  intro va va' l l' e h1 h2
  have s2 : ∀ va : W, testGeom.selector va 2 = va.toNat % 2 ^ 42 / 2 ^ 31 := fun _ => rfl
  have s1 : ∀ va : W, testGeom.selector va 1 = va.toNat % 2 ^ 42 / 2 ^ 21 := fun _ => rfl
  have s0 : ∀ va : W, testGeom.selector va 0 = va.toNat % 2 ^ 42 / 2 ^ 12 := fun _ => rfl
  rcases treeMem_reaches h1 with ⟨rfl, h3⟩ | ⟨rfl, h3, h4⟩ | ⟨rfl, h3, h4, h5⟩ <;>
  rcases treeMem_reaches h2 with ⟨rfl, g3⟩ | ⟨rfl, g3, g4⟩ | ⟨rfl, g3, g4, g5⟩ <;>
  first
    | exact ⟨rfl, by rw [s2, s2]; omega⟩
    | exact ⟨rfl, by rw [s1, s1]; omega⟩
    | exact ⟨rfl, by rw [s0, s0]; omega⟩
    | omega

theorem treeMem_leaf : Reaches testGeom treeMem 0x20000 0x80604123 0 0x40020 := by
  have h2 := Reaches.top (p := testGeom) (mem := treeMem) (root := 0x20000) (va := 0x80604123) (l := 2) rfl
  have h1 := Reaches.down h2 (show BitVec.getLsbD _ 0 = true by decide)
  have h0 := Reaches.down h1 (show BitVec.getLsbD _ 0 = true by decide)
  exact h0

/-- `C60_map_page` applies to the page of 0x80604123 in `treeMem`: it can be mapped to 0x55000. -/
example (g : Cfg) (m : Machine) (hg : g.dramSize = 0x80000) (hm : m.mem = treeMem) : ∃ m', run g 0 (writePte 0x40020 0x55000 6) m = some ((), m') ∧
    run g 0 (walkPageTables testGeom 0x20000 0x80604fff) m' = some (0x55000, m') := by
  have hok : okAddr g 0x40020 = true := (okAddr_iff _).2 (by rw [hg]; decide)
  have hw := run_store g 0 0x40020 (pteValue 0x55000 6) m hok
  refine ⟨_, hw, (C60_map_page (va := 0x80604123) (by decide) (by decide) (by rw [hm]; exact treeMem_tree) (by rw [hm]; exact treeMem_leaf) (by decide)
    (by decide) (fun l x hx => ?_) hw).1 _ (by decide)⟩
  rw [hm] at hx
  rw [okAddr_iff, hg, show (0x80000 : W).toNat = 0x80000 from rfl]
  rcases treeMem_reaches hx with ⟨-, h⟩ | ⟨-, h, -⟩ | ⟨-, h, -⟩ <;> omega

end Sanctum
