import Verif.Lemmas.MetaTrack
import Verif.Props.Frame
/-
C33–C36: creation of enclaves.
-/
namespace Sanctum
open Machine

variable {g : Cfg}

/-! ### C33 -/

/-- C33, in full. -/
def C33_statement (g : Cfg) : Prop :=
  ∀ c e base mask n debug m, LockWords g m → m.owner g 0 = nullEnclaveId →
    ∃ v m', call g c (.createEnclave e base mask n debug) m = some (v, m') ∧ (v = monitorOk ↔ CreateAllowed g m e base mask n) ∧
      (v = monitorOk → CreateEffect g m e base mask n debug m') ∧ (v ≠ monitorOk → m' = m)

theorem exactPages_eq {n : W} (hn : 304 + 8 * g.bitmapWords.toNat + 304 * n.toNat + 4095 < 2 ^ 64) : recordPages g n.toNat = exactPages g n.toNat := by
  unfold recordPages exactPages
  rw [Nat.mod_eq_of_lt hn]

theorem exactPages_pos (g : Cfg) (n : Nat) : 1 ≤ exactPages g n := by unfold exactPages; omega

/-- Two words of the same stripe-sized block are in the same region. -/
theorem regionOf_block (h : g.MetaOk) {r x : Nat} (hr : r < g.regions) (h1 : r * g.stripeSize.toNat ≤ x) (h2 : x < (r + 1) * g.stripeSize.toNat) :
    regionOf g x = r := by
  have hpos : 0 < g.stripeSize.toNat := by rw [h.wf.stripeSize]; exact Nat.two_pow_pos _
  unfold regionOf
  rw [← h.wf.stripeSize, show x / g.stripeSize.toNat = r from by
    apply Nat.div_eq_of_lt_le
    · exact h1
    · exact h2]
  exact Nat.mod_eq_of_lt (by have := h.wf.regionCount; unfold Cfg.regions at hr; omega)

/-- What `create_enclave` writes is in the region of the ID. -/
theorem createSet_region (h : g.MetaOk) {m : Machine} {e b k n : W} (hok : CreateOk g m e b k n) {x : Nat} (hx : createSet g e n x) :
    regionOf g x = regionOf g e.toNat := by
  obtain ⟨-, ⟨h4, hd, -, -⟩, hfit, -⟩ := hok
  obtain ⟨b1, b2, b3, b4, b5, b6⟩ := entry_bounds h hd
  have hp := page_in_region h hd h4
  have hreg := regionOf_lt h.wf e.toNat
  rw [Nat.add_mul, Nat.one_mul] at b6
  have hmul : ∀ j, j < 2 ^ g.sp → 4096 * j + 4096 ≤ g.stripeSize.toNat := by intro j hj; omega
  apply regionOf_block h hreg
  · rcases hx with ⟨x1, x2⟩ | x1 | ⟨j, x1, x2⟩
    · omega
    · omega
    · omega
  · rw [Nat.add_mul, Nat.one_mul]
    have := hmul _ b4
    rcases hx with ⟨x1, x2⟩ | x1 | ⟨j, x1, x2⟩
    · omega
    · omega
    · omega

/-- C33, the part that holds, on machines whose regions have one stripe, for mailbox counts whose structure size
does not wrap: the decision is exact; on success the record holds the arguments and nothing outside the region
changes; the map entry names the enclave if the structure has a single page and the ID is not in the pages of the
map. Missing: the map entries of larger structures (the code overwrites the first and omits the last). -/
theorem C33_create_enclave_partial (h : g.WF) (hs : g.SingleStripe) (hsh : g.ShiftOk) (c : Nat) (e base mask n : W) (debug : Bool) {m : Machine}
    (hl : LockWords g m) (h0 : m.owner g 0 = nullEnclaveId) (hn : 304 + 8 * g.bitmapWords.toNat + 304 * n.toNat + 4095 < 2 ^ 64) :
    ∃ v m', call g c (.createEnclave e base mask n debug) m = some (v, m') ∧ (v = monitorOk ↔ CreateAllowed g m e base mask n) ∧
      (v = monitorOk → RecordFields m' e base mask n debug ∧
        (exactPages g n.toNat = 1 → g.metaStart.toNat ≤ pageIndex g e.toNat → CreateEffect g m e base mask n debug m') ∧
        (g.metaStart.toNat ≤ pageIndex g e.toNat → ∀ k, k + 1 < exactPages g n.toNat → m'.mem (entryA g e.toNat + 8 * k) = innerPageType) ∧
        (∀ x, x < g.dramSize.toNat → regionOf g x ≠ regionOf g e.toNat → m'.mem x = m.mem x) ∧ SameRegs m m') ∧
      (v ≠ monitorOk → m' = m) := by
  have hm : g.MetaOk := ⟨h, hs, hsh⟩
  have hp := exactPages_eq (g := g) hn
  have hiff : CreateOk g m e base mask n ↔ CreateAllowed g m e base mask n := by unfold CreateOk CreateAllowed; rw [hp]
  obtain ⟨q1, q2⟩ := run_createEnclave hm c e base mask n debug hl h0
  rcases Classical.em (CreateOk g m e base mask n) with hok | hok
  · obtain ⟨mem', r1, r2, r3, r4⟩ := q1 hok
    refine ⟨monitorOk, _, r1, iff_of_true rfl (hiff.1 hok), fun _ => ?_, fun hh => absurd rfl hh⟩
    have hreg : ∀ x, x < g.dramSize.toNat → regionOf g x ≠ regionOf g e.toNat → mem' x = m.mem x :=
      fun x _ hx => r4 x (fun hc => hx (createSet_region hm hok hc))
    have hregs : SameRegs m { m with mem := mem' } := ⟨⟨rfl, rfl, rfl, rfl⟩, ⟨rfl, rfl, rfl, rfl⟩, ⟨rfl, rfl⟩⟩
    rw [hp] at r3
    refine ⟨r2, fun h1 h2 => ⟨r2, (r3 h2).1 (by omega), fun k k1 k2 => by omega, hreg, hregs⟩, fun h2 => (r3 h2).2, hreg, hregs⟩
  · obtain ⟨v, r1, r2⟩ := q2 hok
    exact ⟨v, m, r1, iff_of_false r2 (fun hh => hok (hiff.2 hh)), fun hh => absurd hh r2, fun _ => rfl⟩

/-- Makes region 1 a metadata region. -/
def prepCalls : List (Nat × Call) := [(0, .blockDramRegion 1), (0, .freeDramRegion 1), (0, .createMetadataRegion 1)]

/-- A machine with a metadata region. -/
def metaM : Machine := (after toyG prepCalls toyM).2

set_option maxRecDepth 100000 in
theorem prep_runs : (runCalls toyG prepCalls toyM).isSome = true := by decide +kernel

theorem coveredHist_of {l : List (Nat × Call)} {m : Machine} (hall : ∀ x ∈ l, Covered g x.2) : CoveredHist g (events g l m) := by
  unfold events
  generalize (after g l m).1 = vs
  induction l generalizing vs with
  | nil => intro x hx; rw [List.zipWith_nil_left] at hx; cases hx
  | cons y l ih =>
      intro x hx
      cases vs with
      | nil => rw [List.zipWith_nil_right] at hx; cases hx
      | cons v vs =>
          rw [List.zipWith_cons_cons] at hx
          rcases List.mem_cons.1 hx with rfl | hx
          · exact hall y List.mem_cons_self
          · exact ih (fun z hz => hall z (List.mem_cons_of_mem _ hz)) vs x hx

theorem prep_covered : ∀ x ∈ prepCalls, Covered toyG x.2 := by
  intro x hx
  simp only [prepCalls, List.mem_cons, List.not_mem_nil, or_false] at hx
  rcases hx with rfl | rfl | rfl <;> trivial

theorem metaM_inv : Inv toyG metaM :=
  hist_inv toy_wf (hist_after prep_runs (by set_option maxRecDepth 100000 in decide +kernel)) (coveredHist_of prep_covered) toy_fromBoot.inv

/-- C33's hypotheses are met, and its condition holds, in a reachable state. -/
example : LockWords toyG metaM ∧ metaM.owner toyG 0 = nullEnclaveId ∧
    (call toyG 2 (.createEnclave 0x9000 0x4000 0x3fff 7 false) metaM).map Prod.fst = some monitorOk :=
  ⟨metaM_inv.locks, metaM_inv.region0, by set_option maxRecDepth 100000 in decide +kernel⟩

set_option maxRecDepth 100000 in
theorem two_pages : (call toyG 0 (.createEnclave 0x9000 0 4095 20 true) metaM).map (fun x => (x.1, x.2.mem (entryA toyG 0x9000))) =
    some (monitorOk, innerPageType) := by decide +kernel

/-- C33 is false of the code: the first map entry of a two-page structure does not name the enclave. -/
theorem C33_statement_false : ∃ g m, FromBoot g m ∧ ¬ C33_statement g := by
  refine ⟨toyG, toyM, toy_fromBoot, fun hst => ?_⟩
  obtain ⟨v, m', q1, -, q3, -⟩ := hst 0 0x9000 0 4095 20 true metaM metaM_inv.locks metaM_inv.region0
  have ht := two_pages
  rw [q1] at ht
  simp only [Option.map_some, Option.some.injEq, Prod.mk.injEq] at ht
  have := (q3 ht.1).entry
  rw [show (0x9000 : W).toNat = 0x9000 from rfl, ht.2] at this
  exact absurd this (by decide)

set_option maxRecDepth 100000 in
theorem wrapped_count : (call toyG 0 (.createEnclave 0x9000 0 4095 0x1000000000000000 true) metaM).map Prod.fst = some monitorOk := by decide +kernel

/-- Another counterexample: an enclave with 2^60 mailboxes "fits" in one page. -/
theorem C33_wrap_false : ∃ g m e n v m', FromBoot g m ∧ (∃ l m1, Hist g m l m1 ∧ call g 0 (.createEnclave e 0 4095 n true) m1 = some (v, m')) ∧
    v = monitorOk ∧ 2 ^ g.sp < exactPages g n.toNat := by
  have ht := wrapped_count
  cases hc : call toyG 0 (.createEnclave 0x9000 0 4095 0x1000000000000000 true) metaM with
  | none => rw [hc] at ht; cases ht
  | some x =>
      rw [hc] at ht
      injection ht with ht
      exact ⟨toyG, toyM, 0x9000, 0x1000000000000000, x.1, x.2, toy_fromBoot,
        ⟨_, metaM, hist_after prep_runs (by set_option maxRecDepth 100000 in decide +kernel), hc⟩, ht, by set_option maxRecDepth 100000 in decide +kernel⟩

/-! ### C34 -/

/-- C34, in full: in histories in which software only writes to the OS's memory, two structures that are alive at
the same time have no page in common. -/
def C34_statement (g : Cfg) (m1 : Machine) : Prop :=
  ∀ l1 l2 x1 x2 e n e' n' m2, OsHist g m1 (l1 ++ x1 :: (l2 ++ [x2])) m2 → IsCreate e n x1 → IsCreate e' n' x2 → (∀ x ∈ l2, ¬ EndsLife g e x) →
    ∀ i j, i < exactPages g n.toNat → j < exactPages g n'.toNat → e.toNat + 4096 * i ≠ e'.toNat + 4096 * j

theorem OsHist.append {m m2 : Machine} {l1 l2 : List Event} (hh : OsHist g m (l1 ++ l2) m2) : ∃ m1, OsHist g m l1 m1 ∧ OsHist g m1 l2 m2 := by
  generalize hl : l1 ++ l2 = l at hh
  induction hh generalizing l1 with
  | nil m =>
      have := List.append_eq_nil_iff.1 hl
      rw [this.1, this.2]; exact ⟨m, .nil m, .nil m⟩
  | @cons m m' m'' c k v l hc hcall hrest ih =>
      cases l1 with
      | nil =>
          rw [List.nil_append] at hl; subst hl
          exact ⟨m, .nil m, .cons hc hcall hrest⟩
      | cons x l1 =>
          rw [List.cons_append] at hl
          injection hl with h1 h2
          obtain ⟨m1, q1, q2⟩ := ih h2
          subst h1
          exact ⟨m1, .cons hc hcall q1, q2⟩
  | soft hs hrest ih =>
      obtain ⟨m1, q1, q2⟩ := ih hl
      exact ⟨m1, .soft hs q1, q2⟩

theorem OsHist.cons_inv {m m2 : Machine} {x : Event} {l : List Event} (hh : OsHist g m (x :: l) m2) :
    ∃ m1 m1', OsHist g m [] m1 ∧ x.core < g.cores ∧ call g x.core x.call m1 = some (x.result, m1') ∧ OsHist g m1' l m2 := by
  generalize hl : x :: l = l' at hh
  induction hh with
  | nil m => cases hl
  | cons hc hcall hrest ih =>
      injection hl with h1 h2
      subst h1; subst h2
      exact ⟨_, _, .nil _, hc, hcall, hrest⟩
  | soft hs hrest ih =>
      obtain ⟨m1, m1', q1, q2, q3, q4⟩ := ih hl
      exact ⟨m1, m1', .soft hs q1, q2, q3, q4⟩

theorem OsHist.hist {m m' : Machine} {l : List Event} (hh : OsHist g m l m') : Hist g m l m' := by
  induction hh with
  | nil m => exact .nil m
  | cons hc hcall _ ih => exact .cons hc hcall ih
  | soft hs _ ih => obtain ⟨a, v, h1, -, -, h4⟩ := hs; exact .soft ⟨a, v, h1, h4⟩ ih

theorem Hist.of_calls {l : List (Nat × Call)} : ∀ {m m' : Machine} {vs : List W}, runCalls g l m = some (vs, m') → (∀ x ∈ l, x.1 < g.coreCount.toNat) →
    OsHist g m (List.zipWith (fun x v => ⟨x.1, x.2, v⟩) l vs) m' := by
  induction l with
  | nil =>
      intro m m' vs hr _
      simp only [runCalls, Option.some.injEq, Prod.mk.injEq] at hr
      obtain ⟨rfl, rfl⟩ := hr
      exact .nil m
  | cons x h ih =>
      intro m m' vs hr hc
      obtain ⟨c, k⟩ := x
      rw [runCalls] at hr
      split at hr
      · rename_i v m1 hcall
        cases hrest : runCalls g h m1 with
        | none => rw [hrest] at hr; simp at hr
        | some y =>
            rw [hrest] at hr
            simp only [Option.map_some, Option.some.injEq, Prod.mk.injEq] at hr
            obtain ⟨rfl, rfl⟩ := hr
            exact .cons (hc (c, k) (by simp)) hcall (ih hrest (fun x hx => hc x (by simp [hx])))
      · simp at hr

/-- A successful `create_enclave` in an invariant state met its condition; the machine afterwards. -/
theorem create_ok (h : g.MetaOk) {c : Nat} {e b k n : W} {d : Bool} {m m' : Machine} (hi : Inv g m)
    (hr : call g c (.createEnclave e b k n d) m = some (monitorOk, m')) :
    CreateOk g m e b k n ∧ (g.metaStart.toNat ≤ pageIndex g e.toNat → (recordPages g n.toNat ≤ 1 → m'.mem (entryA g e.toNat) = e ||| enclavePageType) ∧
        ∀ j, j + 1 < recordPages g n.toNat → m'.mem (entryA g e.toNat + 8 * j) = innerPageType) := by
  obtain ⟨q1, q2⟩ := run_createEnclave h c e b k n d hi.locks hi.region0
  rcases Classical.em (CreateOk g m e b k n) with hok | hok
  · obtain ⟨mem', r1, -, r3, -⟩ := q1 hok
    have r1 : call g c (.createEnclave e b k n d) m = _ := r1
    rw [r1] at hr
    injection hr with hr; injection hr with _ hr
    rw [← hr]
    exact ⟨hok, r3⟩
  · obtain ⟨v, r1, r2⟩ := q2 hok
    have r1 : call g c (.createEnclave e b k n d) m = _ := r1
    rw [r1] at hr
    injection hr with hr; injection hr with hr _
    exact absurd hr r2

/-- The entry at `x`, in the page map of metadata region `r`, is in use. -/
structure Taken (g : Cfg) (r x : Nat) (m : Machine) : Prop where
  inv : Inv g m
  isMeta : m.owner g r = metadataEnclaveId
  used : m.mem x ≠ 0

theorem taken_call (h : g.MetaOk) {c : Nat} (hc : c < g.cores) {k : Call} (hk : Covered g k) {m m' : Machine} {v : W}
    (hr : call g c k m = some (v, m')) {r x : Nat} (hx1 : r * g.stripeSize.toNat ≤ x) (hx2 : x < r * g.stripeSize.toNat + 8 * 2 ^ g.sp) (hrr : r < g.regions)
    (hcar : ∀ e b mk n d, k = .createEnclave e b mk n d → g.metaStart.toNat ≤ pageIndex g e.toNat ∧ 304 + 8 * g.bitmapWords.toNat + 304 * n.toNat + 4095 < 2 ^ 64)
    (hfree : ∀ w, k = .freeDramRegion w → v = monitorOk → w.toNat ≠ r)
    (ht : Taken g r x m) : Taken g r x m' := by
  have hwf := h.wf
  have hi := ht.inv
  have hss : g.stripeSize.toNat = 4096 * 2 ^ g.sp := by rw [hwf.stripeSize, Nat.pow_add]
  have hsp : 1 ≤ 2 ^ g.sp := Nat.two_pow_pos _
  have hreg : regionOf g x = r := regionOf_block h hrr hx1 (by rw [Nat.add_mul, Nat.one_mul]; omega)
  have hxd : x < g.dramSize.toNat := by
    rw [dram_eq h]
    have := Nat.mul_le_mul_right g.stripeSize.toNat (show r + 1 ≤ g.regions from hrr)
    rw [Nat.add_mul, Nat.one_mul] at this
    omega
  have st := step_call hwf hc hk hi hr
  have tr := track_call hwf hc hk hi hr
  have wt := word_call h hc hk hi hr hxd (by rw [hreg]; exact ht.isMeta)
  refine ⟨st.inv, ?_, ?_⟩
  · rcases tr.owner r hrr with ho | ⟨w, z1, z2, z3 | z3 | z3 | ⟨e, z3⟩⟩
    · rw [ho]; exact ht.isMeta
    · subst z3
      obtain ⟨v1, m3, q4, q5, -, -⟩ := C15_block_exact hwf hc w hi.locks (hi.recordOk hc) hi.dma
      rw [q4] at hr; injection hr with hr; injection hr with y1 y2
      have := (q5.1 (y1.trans z2)).2.2.2.1
      rw [z1, ht.isMeta, hi.os c hc] at this; exact absurd this (by decide)
    · exact absurd z1 (hfree w z3 z2)
    · subst z3
      obtain ⟨v1, m3, q4, q5, -, -⟩ := C18_create_metadata_exact hwf c w hi.locks (by rw [hi.region0]; decide)
      rw [q4] at hr; injection hr with hr; injection hr with y1 y2
      have := (q5.1 (y1.trans z2)).2.2
      rw [z1, ht.isMeta] at this; exact absurd this (by decide)
    · subst z3
      obtain ⟨v1, m3, q4, q5, -, -⟩ := C16_assign_exact hwf c w e hi.locks (fun hh => by rw [hi.noId hwf hh]; exact recordOk_zero)
      rw [q4] at hr; injection hr with hr; injection hr with y1 y2
      have := (q5.1 (y1.trans z2)).2.2.1
      rw [z1, ht.isMeta] at this; exact absurd this (by decide)
  · rcases wt with hw | hw | ⟨e, b, mk, n, d, z1, z2, hok, hset⟩
    · rw [hw]; exact ht.used
    · rw [hw]; decide
    · exfalso
      obtain ⟨hp, hwrap⟩ := hcar e b mk n d z1
      obtain ⟨-, ⟨h4, hd, -, -⟩, hfit, hzero⟩ := id hok
      have hrp : 1 ≤ recordPages g n.toNat := by rw [exactPages_eq hwrap]; exact exactPages_pos g _
      rcases hset with ⟨s1, s2⟩ | s1 | ⟨j, s1, s2⟩
      · -- the record is not in the map
        have hrec : regionOf g x = regionOf g e.toNat :=
          createSet_region h (m := m) (e := e) (b := b) (k := mk) (n := n) hok (Or.inl ⟨s1, s2⟩)
        have hpe := page_in_region h hd h4
        have hms := hwf.metaStart
        have hmp := (mapBytes_single h).2
        rw [← hrec, hreg] at hpe
        omega
      · exact ht.used (by have := hzero 0 (by omega); rw [s1]; simpa using this)
      · exact ht.used (by rw [s2]; exact hzero j (by omega))

theorem taken_hist (h : g.MetaOk) {m m' : Machine} {l : List Event} (hh : OsHist g m l m') (hk : CoveredHist g l) (hcar : CarefulCreate g l)
    {r x : Nat} (hx1 : r * g.stripeSize.toNat ≤ x) (hx2 : x < r * g.stripeSize.toNat + 8 * 2 ^ g.sp) (hrr : r < g.regions)
    (hfree : ∀ y ∈ l, ∀ w, y.call = .freeDramRegion w → y.result = monitorOk → w.toNat ≠ r) (ht : Taken g r x m) : Taken g r x m' := by
  induction hh with
  | nil => exact ht
  | cons hc hcall _ ih =>
      exact ih (fun y hy => hk y (List.mem_cons_of_mem _ hy)) (fun y hy => hcar y (List.mem_cons_of_mem _ hy)) (fun y hy => hfree y (List.mem_cons_of_mem _ hy))
        (taken_call h hc (hk _ List.mem_cons_self) hcall hx1 hx2 hrr (hcar _ List.mem_cons_self) (hfree _ List.mem_cons_self) ht)
  | @soft m m1 m2 l hs _ ih =>
      refine ih hk hcar hfree ?_
      obtain ⟨a, v, h1, h2, h3, rfl⟩ := hs
      have hst := sameTop_st (g := g) (m := m) h1 v
      refine ⟨(hst.inv h.wf ht.inv).1, ?_, ?_⟩
      · rw [← ht.isMeta]
        exact hst.1 _ (by have := ownerA_lt h.wf hrr; omega)
      · have hss : g.stripeSize.toNat = 4096 * 2 ^ g.sp := by rw [h.wf.stripeSize, Nat.pow_add]
        have hsp : 1 ≤ 2 ^ g.sp := Nat.two_pow_pos _
        have hreg : regionOf g x = r := regionOf_block h hrr hx1 (by rw [Nat.add_mul, Nat.one_mul]; omega)
        have hne : x ≠ a := by
          rintro rfl
          rw [hreg, ht.isMeta] at h3; exact absurd h3 (by decide)
        show upd m.mem a v x ≠ 0
        rw [upd_ne _ _ hne]; exact ht.used

/-- C34, the part that holds: no page of a live structure other than the last page of a structure of several
pages can be allocated again (covered calls, single-stripe regions, `CarefulCreate`). Missing: that last page, and
creations in the pages of the map. -/
theorem C34_no_double_allocation_partial {m1 : Machine} (hb : FromBoot g m1) (hs : g.SingleStripe) (hsh : g.ShiftOk)
    {l1 l2 : List Event} {x1 x2 : Event} {e n e' n' : W} {m2 : Machine} (hh : OsHist g m1 (l1 ++ x1 :: (l2 ++ [x2])) m2)
    (hk : CoveredHist g (l1 ++ x1 :: (l2 ++ [x2]))) (hcar : CarefulCreate g (l1 ++ x1 :: (l2 ++ [x2])))
    (h1 : IsCreate e n x1) (h2 : IsCreate e' n' x2) (hlive : ∀ x ∈ l2, ¬ EndsLife g e x)
    {i j : Nat} (hi : i + 1 < exactPages g n.toNat ∨ (i = 0 ∧ exactPages g n.toNat = 1)) (hj : j < exactPages g n'.toNat) :
    e.toNat + 4096 * i ≠ e'.toNat + 4096 * j := by
  have h := hb.wf
  have hm : g.MetaOk := ⟨h, hs, hsh⟩
  intro heq
  obtain ⟨a1, s1, s2⟩ := hh.append
  obtain ⟨a2, a3, s3, c1, e1, s4⟩ := s2.cons_inv
  obtain ⟨a4, s5, s6⟩ := s4.append
  obtain ⟨a5, a6, s7, c2, e2, -⟩ := s6.cons_inv
  have hk1 : CoveredHist g l1 := fun x hx => hk x (by simp [hx])
  have hk2 : CoveredHist g l2 := fun x hx => hk x (by simp [hx])
  have hknil : CoveredHist g [] := fun x hx => absurd hx List.not_mem_nil
  have i2 := hist_inv h s3.hist hknil (hist_inv h s1.hist hk1 hb.inv)
  obtain ⟨r1, b, mk, d, q1⟩ := h1
  obtain ⟨r2, b', mk', d', q2⟩ := h2
  obtain ⟨p1, w1⟩ := hcar x1 (by simp) _ _ _ _ _ q1
  obtain ⟨p2, w2⟩ := hcar x2 (by simp) _ _ _ _ _ q2
  have hkx1 := hk x1 (by simp)
  have hown1 := (track_call h c1 hkx1 i2 e1).owner
  have hinv3 := (step_call h c1 hkx1 i2 e1).inv
  rw [r1, q1] at e1
  rw [r2, q2] at e2
  obtain ⟨ok1, ent⟩ := create_ok hm i2 e1
  have ent := ent p1
  rw [exactPages_eq w1] at ent
  obtain ⟨-, ⟨al1, d1, -, mo1⟩, fit1, -⟩ := ok1
  rw [exactPages_eq w1] at fit1
  obtain ⟨t1, t2, t3, t4, t5, t6⟩ := entry_bounds hm d1
  have hrr := regionOf_lt h e.toNat
  have hx1 : regionOf g e.toNat * g.stripeSize.toNat ≤ entryA g e.toNat + 8 * i := by omega
  have hx2 : entryA g e.toNat + 8 * i < regionOf g e.toNat * g.stripeSize.toNat + 8 * 2 ^ g.sp := by omega
  have hor : (e ||| enclavePageType) ≠ 0 := by
    intro hz
    have := congrArg (fun w : W => w.getLsbD 1) hz
    simp only [BitVec.getLsbD_or] at this
    rw [show (enclavePageType).getLsbD 1 = true from rfl, Bool.or_true] at this
    exact absurd this (by decide)
  have ht : Taken g (regionOf g e.toNat) (entryA g e.toNat + 8 * i) a3 := by
    refine ⟨hinv3, ?_, ?_⟩
    · rcases hown1 _ hrr with ho | ⟨w, -, -, z3⟩
      · rw [ho]; exact mo1
      · rw [q1] at z3
        rcases z3 with z3 | z3 | z3 | ⟨_, z3⟩ <;> cases z3
    · rcases hi with hi | ⟨hi0, hi1⟩
      · rw [ent.2 i hi]; decide
      · rw [hi0, Nat.mul_zero, Nat.add_zero, ent.1 (by omega)]; exact hor
  have hcar2 : CarefulCreate g l2 := fun x hx => hcar x (by simp [hx])
  have hcarnil : CarefulCreate g [] := fun x hx => absurd hx List.not_mem_nil
  have ht4 := taken_hist hm s5 hk2 hcar2 hx1 hx2 hrr (fun y hy w z1 z2 z3 => hlive y hy ⟨z2, Or.inr ⟨w, z1, z3⟩⟩) ht
  have ht5 := taken_hist hm s7 hknil hcarnil hx1 hx2 hrr (fun y hy => absurd hy List.not_mem_nil) ht4
  obtain ⟨ok2, -⟩ := create_ok hm ht5.inv e2
  obtain ⟨-, ⟨al2, d2, -, mo2⟩, fit2, zero2⟩ := ok2
  rw [exactPages_eq w2] at fit2 zero2
  obtain ⟨u1, u2, u3, u4, u5, u6⟩ := entry_bounds hm d2
  have pg1 := page_in_region hm d1 al1
  have pg2 := page_in_region hm d2 al2
  have hsame : regionOf g e.toNat = regionOf g e'.toNat := by
    have k1 : regionOf g (e.toNat + 4096 * i) = regionOf g e.toNat :=
      regionOf_block hm hrr (by omega) (by rw [Nat.add_mul, Nat.one_mul]; omega)
    have k2 : regionOf g (e'.toNat + 4096 * j) = regionOf g e'.toNat :=
      regionOf_block hm (regionOf_lt h _) (by omega) (by rw [Nat.add_mul, Nat.one_mul]; omega)
    rw [← k1, ← k2, heq]
  apply ht5.used
  rw [show entryA g e.toNat + 8 * i = entryA g e'.toNat + 8 * j from by rw [hsame] at pg1 t3; omega]
  exact zero2 j hj

theorem osHist_after {l : List (Nat × Call)} {m : Machine} (hs : (runCalls g l m).isSome = true) (hc : ∀ x ∈ l, x.1 < g.coreCount.toNat) :
    OsHist g m (events g l m) (after g l m).2 := Hist.of_calls (after_ok hs) hc

/-- Two single-page enclaves next to each other. -/
def neighbourCalls : List (Nat × Call) := prepCalls ++ [(1, .createEnclave 0x9000 0 4095 0 true), (2, .dramRegionOwner 1), (0, .createEnclave 0xa000 0 0xffff 3 false)]

set_option maxRecDepth 100000 in
theorem neighbour_runs : (runCalls toyG neighbourCalls toyM).isSome = true ∧ (after toyG neighbourCalls toyM).1 = [0, 0, 0, 0, 2, 0] := by decide +kernel

/-- C34's theorem applies to it. -/
example : (0x9000 : W).toNat + 4096 * 0 ≠ (0xa000 : W).toNat + 4096 * 0 := by
  have hh := osHist_after neighbour_runs.1 (by set_option maxRecDepth 100000 in decide +kernel)
  unfold events at hh
  rw [neighbour_runs.2] at hh
  have hm : toyG.SingleStripe ∧ toyG.ShiftOk := ⟨toy_single, toy_shiftOk⟩
  have hp : toyG.metaStart.toNat = 1 ∧ pageIndex toyG 0x9000 = 1 ∧ pageIndex toyG 0xa000 = 2 ∧ toyG.bitmapWords.toNat = 1 := by
    set_option maxRecDepth 100000 in decide +kernel
  refine C34_no_double_allocation_partial
    (l1 := [⟨0, .blockDramRegion 1, 0⟩, ⟨0, .freeDramRegion 1, 0⟩, ⟨0, .createMetadataRegion 1, 0⟩])
    (l2 := [⟨2, .dramRegionOwner 1, 2⟩]) (n := 0) (n' := 3) (i := 0) (j := 0) toy_fromBoot hm.1 hm.2 hh ?_ ?_ ⟨rfl, _, _, _, rfl⟩ ⟨rfl, _, _, _, rfl⟩ ?_ ?_ ?_
  · intro x hx
    simp only [List.cons_append, List.nil_append, List.mem_cons, List.not_mem_nil, or_false] at hx
    rcases hx with rfl | rfl | rfl | rfl | rfl | rfl <;> first | exact trivial | exact hm
  · intro x hx e b mk n d hcall
    simp only [List.cons_append, List.nil_append, List.mem_cons, List.not_mem_nil, or_false] at hx
    rcases hx with rfl | rfl | rfl | rfl | rfl | rfl <;> cases hcall
    · rw [hp.1, hp.2.2.2]; exact ⟨by show 1 ≤ pageIndex toyG 0x9000; rw [hp.2.1]; exact Nat.le_refl _, by decide⟩
    · rw [hp.1, hp.2.2.2]; exact ⟨by show 1 ≤ pageIndex toyG 0xa000; rw [hp.2.2.1]; decide, by decide⟩
  · intro x hx
    simp only [List.mem_cons, List.not_mem_nil, or_false] at hx
    subst hx
    rintro ⟨h1, -⟩; exact absurd h1 (by decide)
  · right; unfold exactPages; rw [hp.2.2.2]; exact ⟨rfl, by decide⟩
  · unfold exactPages; rw [hp.2.2.2]; decide

/-- The second enclave is in the last page of the first one. -/
def overlapCalls : List (Nat × Call) := prepCalls ++ [(0, .createEnclave 0x9000 0 4095 20 true), (0, .createEnclave 0xa000 0 4095 0 true)]

set_option maxRecDepth 100000 in
theorem overlap_runs : (runCalls toyG overlapCalls toyM).isSome = true ∧ (after toyG overlapCalls toyM).1 = [0, 0, 0, 0, 0] := by decide +kernel

/-- C34 is false of the code: the last page of a two-page structure can be allocated again. -/
theorem C34_statement_false : ∃ g m, FromBoot g m ∧ g.SingleStripe ∧ ¬ C34_statement g m := by
  refine ⟨toyG, toyM, toy_fromBoot, toy_single, fun hst => ?_⟩
  have hh := osHist_after overlap_runs.1 (by set_option maxRecDepth 100000 in decide +kernel)
  unfold events at hh
  rw [overlap_runs.2] at hh
  have hp : toyG.bitmapWords.toNat = 1 := by set_option maxRecDepth 100000 in decide +kernel
  refine hst [⟨0, .blockDramRegion 1, 0⟩, ⟨0, .freeDramRegion 1, 0⟩, ⟨0, .createMetadataRegion 1, 0⟩] [] _ _ 0x9000 20 0xa000 0 _ hh
    ⟨rfl, _, _, _, rfl⟩ ⟨rfl, _, _, _, rfl⟩ (fun x hx => absurd hx List.not_mem_nil) 1 0 ?_ ?_ rfl
  · unfold exactPages; rw [hp]; decide
  · unfold exactPages; rw [hp]; decide

/-! ### C35 -/

/-- C35, in full. -/
def C35_statement (g : Cfg) (m1 : Machine) : Prop :=
  ∀ l1 l2 x e n c r v m2 m3, OsHist g m1 (l1 ++ x :: l2) m2 → IsCreate e n x → (∀ y ∈ l2, ¬ EndsLife g e y) → r.toNat = regionOf g e.toNat →
    call g c (.freeDramRegion r) m2 = some (v, m3) → v ≠ monitorOk

theorem pinned_hist (h : g.WF) {m m' : Machine} {l : List Event} (hh : Hist g m l m') (hk : CoveredHist g l) (hi : Inv g m)
    (hp : ∀ i, i < g.regions → m.owner g i = metadataEnclaveId → m.pinned g i = 0) :
    ∀ i, i < g.regions → m'.owner g i = metadataEnclaveId → m'.pinned g i = 0 := by
  induction hh with
  | nil => exact hp
  | @cons m m1 m2 c k v l hc hcall _ ih =>
      have hkc := hk _ List.mem_cons_self
      have st := step_call h hc hkc hi hcall
      have tr := track_call h hc hkc hi hcall
      refine ih (fun x hx => hk x (List.mem_cons_of_mem _ hx)) st.inv (fun i hlt ho => ?_)
      rcases tr.pinned i hlt with hq | ⟨r, -, -, hq⟩
      · rcases tr.owner i hlt with hw | ⟨r, z1, z2, z3⟩
        · rw [hq]; exact hp i hlt (by rw [← hw]; exact ho)
        · -- the only call that makes a metadata region also clears the count
          rcases z3 with z3 | z3 | z3 | ⟨e, z3⟩ <;> subst z3
          · obtain ⟨v1, m3, q4, q5, q6, -⟩ := C15_block_exact h hc r hi.locks (hi.recordOk hc) hi.dma
            rw [q4] at hcall; injection hcall with hcall; injection hcall with y1 y2
            have := (q6 (y1.trans z2)).blocked
            rw [y2, z1, ho] at this; exact absurd this (by decide)
          · obtain ⟨v1, m3, q4, q5, q6, -⟩ := C17_free_exact h c r hi.locks
            rw [q4] at hcall; injection hcall with hcall; injection hcall with y1 y2
            have := (q6 (y1.trans z2)).free
            rw [y2, z1, ho] at this; exact absurd this (by decide)
          · obtain ⟨v1, m3, q4, q5, q6, -⟩ := C18_create_metadata_exact h c r hi.locks (by rw [hi.region0]; decide)
            rw [q4] at hcall; injection hcall with hcall; injection hcall with y1 y2
            have := (q6 (y1.trans z2)).pinned
            rw [y2, z1] at this; exact this
          · obtain ⟨v1, m3, q4, q5, q6, -⟩ := C16_assign_exact h c r e hi.locks (fun hh => by rw [hi.noId h hh]; exact recordOk_zero)
            rw [q4] at hcall; injection hcall with hcall; injection hcall with y1 y2
            have h0 := hi.noId h (q5.1 (y1.trans z2)).2.2.2.2.2
            have := (q6 (y1.trans z2)).owned
            rw [y2, z1, ho, h0] at this; exact absurd this (by decide)
      · exact hq
  | @soft m m1 m2 l hs _ ih =>
      obtain ⟨a, v, ha, rfl⟩ := hs
      have hst := sameTop_st (g := g) (m := m) ha v
      refine ih hk (hst.inv h hi).1 (fun i hlt ho => ?_)
      have e1 : (m.st a v).owner g i = m.owner g i := hst.1 _ (by have := ownerA_lt h hlt; omega)
      have e2 : (m.st a v).pinned g i = m.pinned g i := hst.1 _ (by have := pinnedA_lt h hlt; omega)
      show (m.st a v).pinned g i = 0
      rw [e2]; exact hp i hlt (by rw [← e1]; exact ho)

/-- The opposite of C35 is what the code does: in every reachable state, every unlocked metadata region can be
freed, whatever has been created in it (nothing ever counts the pages in use). -/
theorem C35_always_freed {m1 : Machine} (hb : FromBoot g m1) {l : List Event} {m2 : Machine} (hh : Hist g m1 l m2) (hk : CoveredHist g l)
    (c : Nat) {r : W} (hr : r.toNat < g.regions) (hl : m2.locked g r.toNat = false) (ho : m2.owner g r.toNat = metadataEnclaveId) :
    ∃ m3, call g c (.freeDramRegion r) m2 = some (monitorOk, m3) ∧ m3.owner g r.toNat = freeEnclaveId := by
  have h := hb.wf
  have hi := hist_inv h hh hk hb.inv
  have hp := pinned_hist h hh hk hb.inv (fun i hlt ho => by
    obtain ⟨p, m0, hp, hboot, -⟩ := id hb
    rw [((C12_boot_state hp hboot).owned i hlt).1] at ho
    exact absurd ho (by decide)) _ hr ho
  obtain ⟨v, m3, q1, q2, q3, -⟩ := C17_free_exact h c r hi.locks
  have hv : v = monitorOk := q2.2 ⟨hr, hl, Or.inr ⟨ho, hp⟩⟩
  exact ⟨m3, by rw [q1, hv], (q3 hv).free⟩

/-- An enclave is created in region 1. -/
def liveCalls : List (Nat × Call) := prepCalls ++ [(0, .createEnclave 0x9000 0 4095 0 true)]

set_option maxRecDepth 100000 in
theorem live_runs : (runCalls toyG liveCalls toyM).isSome = true ∧ (after toyG liveCalls toyM).1 = [0, 0, 0, 0] ∧
    (after toyG liveCalls toyM).2.locked toyG 1 = false ∧ (after toyG liveCalls toyM).2.owner toyG 1 = metadataEnclaveId := by decide +kernel

theorem live_covered : ∀ x ∈ liveCalls, Covered toyG x.2 := by
  have hm : toyG.SingleStripe ∧ toyG.ShiftOk := ⟨toy_single, toy_shiftOk⟩
  intro x hx
  simp only [liveCalls, prepCalls, List.cons_append, List.nil_append, List.mem_cons, List.not_mem_nil, or_false] at hx
  rcases hx with rfl | rfl | rfl | rfl <;> first | exact trivial | exact hm

/-- C35 is false of the code. -/
theorem C35_statement_false : ∃ g m, FromBoot g m ∧ g.SingleStripe ∧ ¬ C35_statement g m := by
  refine ⟨toyG, toyM, toy_fromBoot, toy_single, fun hst => ?_⟩
  have hh := osHist_after live_runs.1 (by set_option maxRecDepth 100000 in decide +kernel)
  obtain ⟨m3, q1, -⟩ := C35_always_freed toy_fromBoot hh.hist (coveredHist_of live_covered) 0 (r := 1) (by set_option maxRecDepth 100000 in decide +kernel)
    live_runs.2.2.1 live_runs.2.2.2
  unfold events at hh
  rw [live_runs.2.1] at hh
  exact hst [⟨0, .blockDramRegion 1, 0⟩, ⟨0, .freeDramRegion 1, 0⟩, ⟨0, .createMetadataRegion 1, 0⟩] [] _ 0x9000 0 0 1 _ _ m3 hh
    ⟨rfl, _, _, _, rfl⟩ (fun y hy => absurd hy List.not_mem_nil) (by set_option maxRecDepth 100000 in decide +kernel) q1 rfl

/-! ### C36 -/

/-- The word at `x` is in the page map of a region. -/
def InMap (g : Cfg) (x : Nat) : Prop := x - regionOf g x * g.stripeSize.toNat < mapBytes g

/-- C36, in full: a successful `create_enclave` changes nothing in the page map but the entries of the structure's own pages. -/
def C36_statement (g : Cfg) : Prop :=
  ∀ c e base mask n debug m m', LockWords g m → m.owner g 0 = nullEnclaveId → call g c (.createEnclave e base mask n debug) m = some (monitorOk, m') →
    (∀ x, e.toNat ≤ x → x < e.toNat + 304 → ¬ InMap g x) ∧
    ∀ x, x < g.dramSize.toNat → InMap g x → (∀ k, k < exactPages g n.toNat → x ≠ entryA g e.toNat + 8 * k) → m'.mem x = m.mem x

/-- C36, the part that holds: for IDs of pages after the map (single-stripe regions, no wrap-around). Missing: the code does not
check that the ID is such a page. -/
theorem C36_map_kept_partial (h : g.WF) (hs : g.SingleStripe) (hsh : g.ShiftOk) {c : Nat} {e base mask n : W} {debug : Bool} {m m' : Machine}
    (hl : LockWords g m) (h0 : m.owner g 0 = nullEnclaveId) (hn : 304 + 8 * g.bitmapWords.toNat + 304 * n.toNat + 4095 < 2 ^ 64)
    (hp : g.metaStart.toNat ≤ pageIndex g e.toNat) (hr : call g c (.createEnclave e base mask n debug) m = some (monitorOk, m')) :
    (∀ x, e.toNat ≤ x → x < e.toNat + 304 → ¬ InMap g x) ∧
    ∀ x, x < g.dramSize.toNat → InMap g x → (∀ k, k < exactPages g n.toNat → x ≠ entryA g e.toNat + 8 * k) → m'.mem x = m.mem x := by
  have hm : g.MetaOk := ⟨h, hs, hsh⟩
  obtain ⟨q1, q2⟩ := run_createEnclave hm c e base mask n debug hl h0
  rcases Classical.em (CreateOk g m e base mask n) with hok | hok
  · obtain ⟨mem', r1, -, -, r4⟩ := q1 hok
    have r1 : call g c (.createEnclave e base mask n debug) m = _ := r1
    rw [r1] at hr
    injection hr with hr; injection hr with _ hr
    have hrec : ∀ x, e.toNat ≤ x → x < e.toNat + 304 → ¬ InMap g x := by
      intro x x1 x2 hin
      have hreg := createSet_region hm hok (x := x) (Or.inl ⟨x1, x2⟩)
      obtain ⟨-, ⟨h4, hd, -, -⟩, -, -⟩ := hok
      have hpe := page_in_region hm hd h4
      unfold InMap mapBytes at hin
      rw [hreg] at hin
      omega
    refine ⟨hrec, fun x hx hin hne => ?_⟩
    rw [← hr]
    refine r4 x ?_
    have hpos := exactPages_pos g n.toNat
    rintro (⟨x1, x2⟩ | x1 | ⟨k, x1, x2⟩)
    · exact hrec x x1 x2 hin
    · exact hne 0 (by omega) (by omega)
    · rw [exactPages_eq hn] at x1
      exact hne k (by omega) x2
  · obtain ⟨v, r1, r2⟩ := q2 hok
    have r1 : call g c (.createEnclave e base mask n debug) m = _ := r1
    rw [r1] at hr
    injection hr with hr; injection hr with hr _
    exact absurd hr r2

set_option maxRecDepth 100000 in
theorem in_map : (call toyG 0 (.createEnclave 0x8000 0 4095 0 true) metaM).map Prod.fst = some monitorOk ∧
    toyG.metaStart.toNat ≤ pageIndex toyG (0x9000 : W).toNat ∧ (call toyG 0 (.createEnclave 0x9000 0 4095 0 true) metaM).map Prod.fst = some monitorOk := by decide +kernel

/-- C36 is false of the code: an enclave can be created in the page that holds the map. (Page 0x9000 meets the partial theorem's hypotheses.) -/
theorem C36_statement_false : ∃ g m, FromBoot g m ∧ g.SingleStripe ∧ ¬ C36_statement g := by
  refine ⟨toyG, toyM, toy_fromBoot, toy_single, fun hst => ?_⟩
  have ht := in_map.1
  cases hc : call toyG 0 (.createEnclave 0x8000 0 4095 0 true) metaM with
  | none => rw [hc] at ht; cases ht
  | some x =>
      rw [hc] at ht
      injection ht with ht
      obtain ⟨v, m3⟩ := x
      dsimp only at ht
      rw [ht] at hc
      refine (hst 0 0x8000 0 4095 0 true metaM m3 metaM_inv.locks metaM_inv.region0 hc).1 0x8000 (Nat.le_refl _) (by decide) ?_
      unfold InMap; set_option maxRecDepth 100000 in decide +kernel

/-- And creating it makes other pages look free: here page 0x9000 of a live enclave is allocated again. -/
theorem C36_reallocates : (runCalls toyG [(0, .createEnclave 0x9000 0 4095 0 true), (0, .createEnclave 0x9000 0 4095 0 true), (0, .createEnclave 0x8000 0 4095 0 true),
    (0, .createEnclave 0x9000 0 4095 0 true)] metaM).map (fun x => x.1.map (· == monitorOk)) = some [true, false, true, true] := by
  set_option maxRecDepth 100000 in decide +kernel

end Sanctum
