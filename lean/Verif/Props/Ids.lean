import Verif.Props.Enclave
import Verif.Lemmas.Touches
/-
C37–C42: the calls that take an enclave or thread ID.
-/
namespace Sanctum
open Machine

variable {g : Cfg}

/-! ### C37 -/

/-- `k` is a call that takes an enclave ID, and the ID is `e`. (`assign_dram_region` and `copy_debug_enclave_page` accept
the OS's ID 0; for `assign_dram_region` that is documented.) -/
def IdCall (e : W) : Call → Prop
  | .assignDramRegion _ e' => e' = e ∧ e ≠ 0
  | .loadPageTable e' _ _ _ _ => e' = e
  | .loadPage e' _ _ _ _ => e' = e
  | .loadThread e' _ _ _ _ _ => e' = e
  | .assignThread e' _ => e' = e
  | .initEnclave e' => e' = e
  | .enterEnclave e' _ => e' = e
  | .deleteEnclave e' => e' = e
  | .copyDebugEnclavePage e' _ _ _ => e' = e
  | _ => False

/-- C37, in full: a call on an ID that no successful `create_enclave` returned fails and has no effect. -/
def C37_statement (g : Cfg) (m1 : Machine) : Prop :=
  ∀ l m2 e k c v m3, OsHist g m1 l m2 → c < g.cores → IdCall e k → (¬ ∃ x ∈ l, ∃ n, IsCreate e n x) → call g c k m2 = some (v, m3) →
    v ≠ monitorOk ∧ m3 = m2

/-- C37, the part that holds, for all histories of covered calls: the call fails, and has no effect unless it is a thread
call on a page that the page map says is an enclave's. (In fact no ID but the OS's is ever accepted, not even those that
`create_enclave` returned.) Missing: `copy_debug_enclave_page` with ID 0. -/
theorem C37_id_check_partial {m1 : Machine} (hb : FromBoot g m1) {l : List Event} {m2 : Machine} (hh : Hist g m1 l m2) (hcov : CoveredHist g l)
    {e : W} {k : Call} {c : Nat} (hc : c < g.cores) (hid : IdCall e k) (hk : Covered g k)
    (h0 : ∀ a os d, k = .copyDebugEnclavePage e a os d → e ≠ 0) {v : W} {m3 : Machine} (hr : call g c k m2 = some (v, m3)) :
    v ≠ monitorOk ∧ (m3 = m2 ∨ (((∃ t, k = .assignThread e t) ∨ ∃ t a b c d, k = .loadThread e t a b c d) ∧ EnclavePage g m2 e ∧
      m2.mem e.toNat ≠ 0 ∧ m2.mem e.toNat ≠ 1 ∧ m3 = m2.st e.toNat 1)) := by
  have h := hb.wf
  have hi := hist_inv h hh hcov hb.inv
  have hof : ∀ {k : Call}, call g c k m2 = some (v, m3) → (∃ x, call g c k m2 = some (x, m2) ∧ x ≠ monitorOk) → v ≠ monitorOk ∧ m3 = m2 := by
    rintro k hr ⟨x, q1, q2⟩
    rw [q1] at hr
    injection hr with hr; injection hr with r1 r2
    subst r1; exact ⟨q2, r2.symm⟩
  have hno := hi.not_valid h
  cases k with
  | assignDramRegion r e' =>
      obtain ⟨rfl, h1⟩ := hid
      obtain ⟨v', m', q1, q2, -, q4⟩ := C16_assign_exact h c r e' hi.locks (fun ho => absurd (hi.noId h ho) h1)
      rw [q1] at hr
      injection hr with hr; injection hr with r1 r2
      subst r1; subst r2
      have hv : v' ≠ monitorOk := fun hv => h1 (hi.noId h (q2.1 hv).2.2.2.2.2)
      exact ⟨hv, Or.inl (q4 hv)⟩
  | loadPageTable e' p va lv acl =>
      obtain ⟨x, q1, q2⟩ := run_loadPageTable h c e' p va lv acl hi.locks (fun hv => absurd hv (hno e'))
      have := hof hr ⟨x, q1, fun hx => hno e' (q2.1 hx).2.2.1.1⟩
      exact ⟨this.1, Or.inl this.2⟩
  | loadPage e' p va os acl =>
      obtain ⟨x, q1, q2⟩ := run_loadPage h c e' p va os acl hi.locks (fun hv => absurd hv (hno e'))
      have := hof hr ⟨x, q1, fun hx => hno e' (q2.1 hx).2.2.1.1⟩
      exact ⟨this.1, Or.inl this.2⟩
  | initEnclave e' => exact ⟨(hof hr (fail_initEnclave h c e' hi)).1, Or.inl (hof hr (fail_initEnclave h c e' hi)).2⟩
  | enterEnclave e' t => exact ⟨(hof hr (fail_enterEnclave h c e' t hi)).1, Or.inl (hof hr (fail_enterEnclave h c e' t hi)).2⟩
  | deleteEnclave e' => exact ⟨(hof hr (fail_deleteEnclave h c e' hi)).1, Or.inl (hof hr (fail_deleteEnclave h c e' hi)).2⟩
  | copyDebugEnclavePage e' a os d =>
      have he : e' = e := hid
      subst he
      obtain ⟨q1, q2⟩ := run_copyDebug_any h c e' a os d hi.locks hr
      have hv : v ≠ monitorOk := fun hv => h0 a os d rfl (hi.noId h (q2 hv))
      exact ⟨hv, Or.inl (q1 hv)⟩
  | assignThread e' t =>
      have he : e' = e := hid
      subst he
      obtain ⟨v', m', q1, q2, q3⟩ := run_assignThread ⟨h, hk.1, hk.2⟩ c e' t hi.locks hi.region0
      have hr' : run g c (assignThread g e' t) m2 = some (v, m3) := hr
      rw [q1] at hr'
      injection hr' with hr'; injection hr' with r1 r2
      subst r1; subst r2
      refine ⟨q2, ?_⟩
      rcases q3 with q3 | ⟨q3, q4, q5, q6⟩
      · exact Or.inl q3
      · exact Or.inr ⟨Or.inl ⟨t, rfl⟩, q3, q4, q5, q6⟩
  | loadThread e' t p1 p2 p3 p4 =>
      have he : e' = e := hid
      subst he
      obtain ⟨v', m', q1, q2, q3⟩ := run_loadThread ⟨h, hk.1, hk.2⟩ c e' t p1 p2 p3 p4 hi.locks hi.region0
      have hr' : run g c (loadThread g e' t p1 p2 p3 p4) m2 = some (v, m3) := hr
      rw [q1] at hr'
      injection hr' with hr'; injection hr' with r1 r2
      subst r1; subst r2
      refine ⟨q2, ?_⟩
      rcases q3 with q3 | ⟨q3, q4, q5, q6⟩
      · exact Or.inl q3
      · exact Or.inr ⟨Or.inr ⟨t, p1, p2, p3, p4, rfl⟩, q3, q4, q5, q6⟩
  | _ => exact absurd hid id

/-- The hypotheses of C37 are met in a state with metadata, by a call on a page that is not an enclave. -/
example : Hist toyG toyM (events toyG prepCalls toyM) metaM ∧ CoveredHist toyG (events toyG prepCalls toyM) ∧
    IdCall 0x9000 (.deleteEnclave 0x9000) ∧ (call toyG 2 (.deleteEnclave 0x9000) metaM).map Prod.fst = some monitorInvalidValue :=
  ⟨hist_after prep_runs (by set_option maxRecDepth 100000 in decide +kernel), coveredHist_of prep_covered, rfl,
    by set_option maxRecDepth 100000 in decide +kernel⟩

set_option maxRecDepth 100000 in
theorem overwrite_calls_only : ∀ x ∈ overwriteCalls, ∀ e b k n d, x.2 ≠ .createEnclave e b k n d := by
  intro x hx e b k n d
  simp only [overwriteCalls, List.mem_cons, List.not_mem_nil, or_false] at hx
  rcases hx with rfl | rfl <;> exact fun hh => by cases hh

/-- C37 is false of the code: `copy_debug_enclave_page` accepts ID 0. -/
theorem C37_statement_false : ∃ g m, FromBoot g m ∧ ¬ C37_statement g m := by
  refine ⟨toyG, toyM, toy_fromBoot, fun hst => ?_⟩
  have hh : OsHist toyG toyM (events toyG overwriteCalls toyM) (after toyG overwriteCalls toyM).2 :=
    osHist_after overwrite_runs (by set_option maxRecDepth 100000 in decide +kernel)
  obtain ⟨⟨v, m3⟩, h1, h2, -⟩ := overwrite_effect
  refine (hst _ _ 0 (.copyDebugEnclavePage 0 0 0x10000 false) 0 v m3 hh (by set_option maxRecDepth 100000 in decide +kernel) rfl ?_ h1).1 h2
  rintro ⟨x, hx, n, -, b, mk, d, hcall⟩
  unfold events at hx
  obtain ⟨y, w, hy, hw, rfl⟩ : ∃ y w, y ∈ overwriteCalls ∧ w ∈ (after toyG overwriteCalls toyM).1 ∧ x = ⟨y.1, y.2, w⟩ := by
    have key : ∀ (l1 : List (Nat × Call)) (l2 : List W), x ∈ List.zipWith (fun y v => (⟨y.1, y.2, v⟩ : Event)) l1 l2 →
        ∃ y w, y ∈ l1 ∧ w ∈ l2 ∧ x = ⟨y.1, y.2, w⟩ := by
      intro l1
      induction l1 with
      | nil => intro l2 hh; simp at hh
      | cons a l1 ih =>
          intro l2 hh
          cases l2 with
          | nil => simp at hh
          | cons b l2 =>
              simp only [List.zipWith_cons_cons, List.mem_cons] at hh
              rcases hh with rfl | hh
              · exact ⟨a, b, by simp, by simp, rfl⟩
              · obtain ⟨y, w, q1, q2, q3⟩ := ih l2 hh
                exact ⟨y, w, by simp [q1], by simp [q2], q3⟩
    exact key _ _ hx
  exact overwrite_calls_only y hy _ _ _ _ _ hcall

/-! ### A state with an enclave

No enclave ID is accepted in any state the model reaches from boot, so the rest is about all states, and the examples
use this state: regions 1 and 2 belong to an enclave whose record is at 0x9000 (in region 1), a debug enclave that is not yet
initialized. -/

/-- See above. -/
def enclM : Machine := (((toyM.st (ownerA toyG 1) 0x9000).st (ownerA toyG 2) 0x9000).st 0x9018 1).st 0x9130 6

set_option maxRecDepth 100000 in
theorem enclM_facts : (∀ i, i < 8 → enclM.mem (lockA toyG i) = 0) ∧ enclM.owner toyG 0 = nullEnclaveId ∧ toyG.regions = 8 ∧
    (∀ c, c < 4 → enclM.running c = 0) ∧ toyG.cores = 4 ∧ enclM.dmaStart ≤ enclM.dmaEnd ∧
    (∀ i, i < 8 → enclM.owner toyG i = 0 ∨ enclM.owner toyG i = 0x9000) ∧ toyG.monitorTop.toNat ≤ 0x9000 ∧ toyG.bitmapWords.toNat = 1 ∧
    toyG.dramSize.toNat = 0x40000 := by decide +kernel

theorem recordOk_encl : RecordOk toyG 0x9000 := by
  intro _
  have hf := enclM_facts
  exact ⟨by decide, hf.2.2.2.2.2.2.2.1, by rw [hf.2.2.2.2.2.2.2.2.1, hf.2.2.2.2.2.2.2.2.2]; decide⟩

theorem enclM_ok (c : Nat) (hc : c < toyG.cores) : StateOk toyG c enclM := by
  have hf := enclM_facts
  refine ⟨fun i hi => Or.inl (hf.1 i (by rw [hf.2.2.1] at hi; exact hi)), hf.2.1, ?_, ?_, hf.2.2.2.2.2.1⟩
  · rw [hf.2.2.2.1 c (by rw [hf.2.2.2.2.1] at hc; exact hc)]; exact recordOk_zero
  · intro e hv
    have hlt : idRegion toyG e < toyG.regions := idRegion_lt toy_wf e
    rw [hf.2.2.1] at hlt
    have he : e = 0x9000 := by
      rcases hf.2.2.2.2.2.2.1 _ hlt with h1 | h1
      · exact absurd (hv.2.symm.trans h1) hv.1
      · exact hv.2.symm.trans h1
    subst he
    refine ⟨recordOk_encl, ?_⟩
    rw [hf.2.2.1, hf.2.2.2.2.2.2.2.2.2]; decide

/-! ### C38 -/

/-- The calls that build an enclave, on `e`. -/
def BuildCall (e : W) : Call → Prop
  | .loadPageTable e' _ _ _ _ => e' = e
  | .loadPage e' _ _ _ _ => e' = e
  | .loadThread e' _ _ _ _ _ => e' = e
  | .initEnclave e' => e' = e
  | _ => False

/-- C38, in full: the part about histories. After `init_enclave(e)` has succeeded, in whatever follows until the enclave is deleted, all
calls that build `e` fail, and the words of the record that hold the measurement and the initialized flag never change. -/
def C38_statement (g : Cfg) : Prop :=
  ∀ c e m m1 l m2, StateOk g c m → c < g.cores → call g c (.initEnclave e) m = some (monitorOk, m1) → OsHist g m1 l m2 →
    (∀ x ∈ l, ¬ EndsLife g e x) →
    (∀ x ∈ l, BuildCall e x.call → x.result ≠ monitorOk) ∧ m2.initialized e = m1.initialized e ∧
      ∀ x, e.toNat + 80 ≤ x → x < e.toNat + 304 → m2.mem x = m1.mem x

/-- C38, the part that holds, on machines with single-stripe regions: `init_enclave` succeeds only on an enclave that is not initialized; then every
sequence of building calls on it, on any cores, completes, all of them fail, and nothing changes. Missing: the other calls in between. -/
theorem C38_sealed_partial (h : g.WF) (hss : g.SingleStripe) (hso : g.ShiftOk) {c : Nat} {e : W} {m m1 : Machine} (hl : LockWords g m)
    (h0 : m.owner g 0 = nullEnclaveId) (he : RecordOk g e) (hr : call g c (.initEnclave e) m = some (monitorOk, m1)) :
    m.initialized e = 0 ∧ m1.initialized e = 1 ∧
    ∀ l : List (Nat × Call), (∀ x ∈ l, BuildCall e x.2) → ∃ vs, runCalls g l m1 = some (vs, m1) ∧ ∀ v ∈ vs, v ≠ monitorOk := by
  have hrun : run g c (initEnclave g e) m = some (monitorOk, m1) := hr
  obtain ⟨q1, q2⟩ := run_initEnclave h c e hl (fun _ => he)
  rcases Classical.em (IdReady g m e ∧ m.initialized e = 0) with hok | hok
  · obtain ⟨mem', r1, r2, r3⟩ := q1 hok
    rw [r1] at hrun
    injection hrun with hrun; injection hrun with _ hm
    subst hm
    have hne0 : e ≠ 0 := hok.1.1.1
    obtain ⟨e1, e2, e3⟩ := he hne0
    have hlow : ∀ x, x < g.monitorTop.toNat → mem' x = m.mem x := fun x hx => r3 x (by omega) (by omega)
    have hl1 : LockWords g { m with mem := mem' } := fun i hi => by
      show mem' _ = 0 ∨ mem' _ = 1
      rw [hlow _ (by have := lockA_lt h hi; omega)]; exact hl i hi
    have h01 : ({ m with mem := mem' } : Machine).owner g 0 = nullEnclaveId := by
      show mem' _ = _
      rw [hlow _ (by have := ownerA_lt h (i := 0) (by have := h.regions_ge; omega); omega)]; exact h0
    have hid : ({ m with mem := mem' } : Machine).owner g (idRegion g e) = e := by
      show mem' _ = _
      rw [hlow _ (by have := ownerA_lt h (idRegion_lt h e); omega)]; exact hok.1.1.2
    refine ⟨hok.2, r2, fun l => ?_⟩
    generalize hm1 : ({ m with mem := mem' } : Machine) = m1 at *
    have hinit : m1.initialized e = 1 := by rw [← hm1]; exact r2
    have hnot : m1.initialized e ≠ 0 := by rw [hinit]; decide
    have hpage : ¬ EnclavePage g m1 e := by
      rintro ⟨⟨-, p2, -, p4⟩, -⟩
      have : idRegion g e = regionOf g e.toNat := by unfold idRegion; rw [if_pos p2]
      rw [← this, hid] at p4
      rw [p4] at e1; exact absurd e1 (by decide)
    have hone : ∀ c k, BuildCall e k → ∃ v, call g c k m1 = some (v, m1) ∧ v ≠ monitorOk := by
      intro c k hk
      cases k with
      | loadPageTable e' p va lv acl =>
          have hh : e' = e := hk
          subst hh
          obtain ⟨x, s1, s2⟩ := run_loadPageTable h c e' p va lv acl hl1 (fun _ => he)
          exact ⟨x, s1, fun hx => hnot (s2.1 hx).2.2.2.1⟩
      | loadPage e' p va os acl =>
          have hh : e' = e := hk
          subst hh
          obtain ⟨x, s1, s2⟩ := run_loadPage h c e' p va os acl hl1 (fun _ => he)
          exact ⟨x, s1, fun hx => hnot (s2.1 hx).2.2.2.1⟩
      | loadThread e' t p1 p2 p3 p4 =>
          have hh : e' = e := hk
          subst hh
          obtain ⟨v', m', s1, s2, s3⟩ := run_loadThread ⟨h, hss, hso⟩ c e' t p1 p2 p3 p4 hl1 h01
          rcases s3 with rfl | ⟨s3, -⟩
          · exact ⟨v', s1, s2⟩
          · exact absurd s3 hpage
      | initEnclave e' =>
          have hh : e' = e := hk
          subst hh
          exact (run_initEnclave h c e' hl1 (fun _ => he)).2 (fun hh => hnot hh.2)
      | _ => exact absurd hk id
    induction l with
    | nil => exact fun _ => ⟨[], rfl, fun v hv => by cases hv⟩
    | cons x l ih =>
        intro hx
        obtain ⟨c, k⟩ := x
        obtain ⟨v, s1, s2⟩ := hone c k (hx (c, k) List.mem_cons_self)
        obtain ⟨vs, s3, s4⟩ := ih (fun y hy => hx y (List.mem_cons_of_mem _ hy))
        refine ⟨v :: vs, ?_, ?_⟩
        · rw [runCalls, s1]; simp only [s3, Option.map_some]
        · intro w hw
          rcases List.mem_cons.1 hw with rfl | hw
          · exact s2
          · exact s4 w hw
  · obtain ⟨x, r1, r2⟩ := q2 hok
    rw [r1] at hrun
    injection hrun with hrun; injection hrun with hrun _
    exact absurd hrun r2

/-- C38's hypotheses are met. -/
example : LockWords toyG enclM ∧ RecordOk toyG 0x9000 ∧ (call toyG 1 (.initEnclave 0x9000) enclM).map Prod.fst = some monitorOk :=
  ⟨(enclM_ok 0 (by set_option maxRecDepth 100000 in decide +kernel)).locks, recordOk_encl, by set_option maxRecDepth 100000 in decide +kernel⟩

set_option maxRecDepth 100000 in
theorem seal_broken : ((call toyG 1 (.initEnclave 0x9000) enclM).bind (fun x => (call toyG 0 (.acceptThread 0x9050 0x1000) x.2).map (fun y =>
    (x.1, y.1, x.2.mem 0x9050 == y.2.mem 0x9050)))) = some (monitorOk, monitorOk, false) := by decide +kernel

/-- C38 is false of the code: `accept_thread`, called by the OS, overwrites the measurement. -/
theorem C38_statement_false : ∃ g, g.WF ∧ ¬ C38_statement g := by
  refine ⟨toyG, toy_wf, fun hst => ?_⟩
  have ht := seal_broken
  have h1 : 1 < toyG.cores ∧ 0 < toyG.coreCount.toNat := by set_option maxRecDepth 100000 in decide +kernel
  cases hc : call toyG 1 (.initEnclave 0x9000) enclM with
  | none => rw [hc] at ht; cases ht
  | some x =>
      rw [hc, Option.bind_some] at ht
      cases hd : call toyG 0 (.acceptThread 0x9050 0x1000) x.2 with
      | none => rw [hd] at ht; cases ht
      | some y =>
          rw [hd] at ht
          simp only [Option.map_some, Option.some.injEq, Prod.mk.injEq, beq_eq_false_iff_ne] at ht
          obtain ⟨x1, x2⟩ := x
          obtain ⟨y1, y2⟩ := y
          obtain ⟨t1, t2, t3⟩ := ht
          dsimp only at t1 t2 t3 hd
          subst t1; subst t2
          have := (hst 1 0x9000 enclM x2 _ y2 (enclM_ok 1 h1.1) h1.1 hc (.cons h1.2 hd (.nil _)) (by
            intro z hz
            rw [List.mem_singleton] at hz
            subst hz
            rintro ⟨-, hh | ⟨r, hh, -⟩⟩ <;> cases hh)).2.2 0x9050 (by decide) (by decide)
          exact t3 this.symm

/-! ### C39 -/

/-- C39, in full. -/
def C39_statement (g : Cfg) : Prop :=
  ∀ c e a os dir m v m', StateOk g c m → c < g.cores → call g c (.copyDebugEnclavePage e a os dir) m = some (v, m') →
    (v = monitorOk → ValidId g m e ∧ m.isDebug e ≠ 0 ∧ m.bmBit g e (regionOf g a.toNat) = true ∧ m.owner g (regionOf g os.toNat) = nullEnclaveId ∧
      CopyEffect m (if dir then os.toNat else a.toNat) (if dir then a.toNat else os.toNat) m') ∧
    (v ≠ monitorOk → m' = m)

/-- C39, the part that holds: for IDs of records (not the OS's ID) and pages outside the monitor's memory, the decision is exact and the
effect is that of copying one page. Missing: ID 0 and the monitor's own page, which the code accepts. -/
theorem C39_debug_copy_partial (h : g.WF) (c : Nat) {e a os : W} (dir : Bool) {m : Machine} (hl : LockWords g m) (he : RecordOk g e)
    (ha : g.monitorTop.toNat ≤ a.toNat) (hos : g.monitorTop.toNat ≤ os.toNat) :
    ∃ v m', call g c (.copyDebugEnclavePage e a os dir) m = some (v, m') ∧ (v = monitorOk ↔ CopyOk g m e a os) ∧
      (v = monitorOk → CopyEffect m (if dir then os.toNat else a.toNat) (if dir then a.toNat else os.toNat) m') ∧ (v ≠ monitorOk → m' = m) := by
  obtain ⟨q1, q2⟩ := run_copyDebug h c e a os dir hl he
  rcases Classical.em (CopyOk g m e a os) with hok | hok
  · refine ⟨_, _, q2 hok ha hos, iff_of_true rfl hok, fun _ => ?_, fun hn => absurd rfl hn⟩
    have hdisj : a.toNat = os.toNat ∨ a.toNat + 4096 ≤ os.toNat ∨ os.toNat + 4096 ≤ a.toNat := by
      have := hok.1.1; have := hok.2.1.1; omega
    have key : ∀ d s : Nat, d % 8 = 0 → CopyEffect m d s { m with mem := copied m.mem 512 d s } := by
      intro d s hd
      refine ⟨fun k hk => ?_, fun x hx => ?_, sameRegs_refl _ _⟩
      · show copied m.mem 512 d s (d + 8 * k) = _
        unfold copied
        rw [if_pos (by omega)]; congr 1; omega
      · show copied m.mem 512 d s x = _
        unfold copied
        rw [if_neg (by omega)]
    cases dir
    · exact key a.toNat os.toNat (by have := hok.1.1; omega)
    · exact key os.toNat a.toNat (by have := hok.2.1.1; omega)
  · obtain ⟨x, r1, r2⟩ := q1 hok
    exact ⟨x, m, r1, iff_of_false r2 hok, fun hv => absurd hv r2, fun _ => rfl⟩

/-- C39's hypotheses are met by a copy that succeeds, and by one that is refused (0x20000 is not the enclave's). -/
example : LockWords toyG enclM ∧ RecordOk toyG 0x9000 ∧
    (call toyG 0 (.copyDebugEnclavePage 0x9000 0x12000 0x30000 true) enclM).map Prod.fst = some monitorOk ∧
    (call toyG 0 (.copyDebugEnclavePage 0x9000 0x20000 0x30000 true) enclM).map Prod.fst = some monitorInvalidValue :=
  ⟨(enclM_ok 0 (by set_option maxRecDepth 100000 in decide +kernel)).locks, recordOk_encl, by set_option maxRecDepth 100000 in decide +kernel,
    by set_option maxRecDepth 100000 in decide +kernel⟩

/-- C39 is false of the code, in a reachable state: ID 0 is accepted. -/
theorem C39_statement_false : ∃ g m, FromBoot g m ∧ ¬ C39_statement g := by
  refine ⟨toyG, toyM, toy_fromBoot, fun hst => ?_⟩
  obtain ⟨⟨v, m3⟩, h1, h2, -⟩ := overwrite_effect
  have hh := hist_after overwrite_runs (by set_option maxRecDepth 100000 in decide +kernel)
  have hcov : CoveredHist toyG (events toyG overwriteCalls toyM) := coveredHist_of (by
    intro x hx
    simp only [overwriteCalls, List.mem_cons, List.not_mem_nil, or_false] at hx
    rcases hx with rfl | rfl <;> exact trivial)
  have h0 : 0 < toyG.cores := by set_option maxRecDepth 100000 in decide +kernel
  have hs := (hist_inv toy_wf hh hcov toy_fromBoot.inv).stateOk toy_wf h0
  exact ((hst 0 0 _ _ _ _ v m3 hs h0 h1).1 h2).1.1 rfl

set_option maxRecDepth 100000 in
/-- Another counterexample: a copy from a debug enclave to the first page of DRAM overwrites the monitor's tables: here it makes the
enclave's first word the owner of the OS's region 0. (The lock it holds is overwritten as well.) -/
theorem C39_monitor_overwritten : (call toyG 0 (.copyDebugEnclavePage 0x9000 0x12000 0 true) (enclM.st (0x12000 + ownerA toyG 0) 77)).map
    (fun x => (x.1, (enclM.st (0x12000 + ownerA toyG 0) 77).owner toyG 0, x.2.owner toyG 0)) = some (monitorOk, 0, 77) := by decide +kernel

/-! ### C40 -/

/-- C40, in full. -/
def C40_statement (g : Cfg) : Prop :=
  ∀ c e m v m', StateOk g c m → c < g.cores → call g c (.deleteEnclave e) m = some (v, m') →
    (m.threads e ≠ 0 → v ≠ monitorOk) ∧ (v ≠ monitorOk → m' = m) ∧
    (v = monitorOk → ∀ i, i < g.regions →
      (m.bmBit g e i = true → m'.owner g i = freeEnclaveId ∧ ∀ x, x < g.dramSize.toNat → regionOf g x = i → x % 8 = 0 → m'.mem x = 0) ∧
      (m.bmBit g e i = false → m'.owner g i = m.owner g i ∧
        ∀ x, g.monitorTop.toNat ≤ x → x < g.dramSize.toNat → regionOf g x = i → m'.mem x = m.mem x))

/-- C40, the part that holds: with threads, the call fails without effect; if the bit after the enclave's bitmap is 0, the decision is exact. Missing:
the effect of a success, which in that case is nothing at all — no region is freed. -/
theorem C40_delete_partial (h : g.WF) {c : Nat} {e : W} {m : Machine} (hs : StateOk g c m) (hb : m.afterBit g e = false) :
    ∃ v, call g c (.deleteEnclave e) m = some (v, m) ∧ (v = monitorOk ↔ DeleteOk g m e) ∧ (m.threads e ≠ 0 → v ≠ monitorOk) := by
  obtain ⟨x, q1, q2⟩ := run_deleteEnclave h c e hs.locks (fun hv => (hs.ids e hv).1) (fun hv => (hs.ids e hv).2) hb
  exact ⟨x, q1, q2, fun ht hx => ht (q2.1 hx).2.1⟩

/-- With threads, or with an ID that is not accepted, the call fails without effect whatever the bitmap says. -/
theorem C40_refused (h : g.WF) {c : Nat} {e : W} {m : Machine} (hs : StateOk g c m) (hn : m.threads e ≠ 0 ∨ ¬ IdReady g m e) :
    ∃ v, call g c (.deleteEnclave e) m = some (v, m) ∧ v ≠ monitorOk := by
  show ∃ v, run g c (deleteEnclave g e) m = _ ∧ _
  unfold deleteEnclave
  rcases Classical.em (IdReady g m e) with hid | hid
  · rcases hn with hn | hn
    · have hre := (hs.ids e hid.1).1
      rw [run_withLocked_ok h c e _ hid, run_bind, run_loadRec h c hre hid _ (by decide) (by decide), Option.bind_some]
      dsimp only
      have h4' : (m.mem (e.toNat + offThreadCount.toNat) != 0) = true := bne_iff_ne.2 hn
      rw [if_pos h4', run_finish h c hid]
      exact ⟨_, rfl, by decide⟩
    · exact absurd hid hn
  · exact run_withLocked_err h c e hs.locks _ hid

set_option maxRecDepth 100000 in
theorem delete_frees_nothing : (call toyG 0 (.deleteEnclave 0x9000) enclM).map (fun x => (x.1, x.2.owner toyG 2)) = some (monitorOk, 0x9000) ∧
    enclM.bmBit toyG 0x9000 2 = true ∧ enclM.afterBit toyG 0x9000 = false := by decide +kernel

/-- C40 is false of the code: a region in the bitmap of the deleted enclave is not freed. -/
theorem C40_statement_false : ∃ g, g.WF ∧ ¬ C40_statement g := by
  refine ⟨toyG, toy_wf, fun hst => ?_⟩
  obtain ⟨ht, hbit, -⟩ := delete_frees_nothing
  have h0 : 0 < toyG.cores := by set_option maxRecDepth 100000 in decide +kernel
  cases hc : call toyG 0 (.deleteEnclave 0x9000) enclM with
  | none => rw [hc] at ht; cases ht
  | some x =>
      rw [hc] at ht
      simp only [Option.map_some, Option.some.injEq, Prod.mk.injEq] at ht
      have := ((hst 0 _ _ x.1 x.2 (enclM_ok 0 h0) h0 hc).2.2 ht.1 2 (by set_option maxRecDepth 100000 in decide +kernel)).1 hbit
      rw [ht.2] at this
      exact absurd this.1 (by decide)

set_option maxRecDepth 100000 in
/-- If the bit after the bitmap is set, the monitor's own memory and all OS memory in region 0 is wiped, and region 0 gets owner 0 by the wipe. -/
theorem C40_wipes_monitor : (call toyG 0 (.deleteEnclave 0x9000) ((enclM.st 0x9130 0x106).st 0x4000 5)).map (fun x => (x.1, x.2.mem 0x4000, x.2.osBit toyG 0)) =
    some (monitorOk, 0, false) ∧ enclM.osBit toyG 0 = true := by decide +kernel

/-! ### C41 -/

/-- C41, in full: on an enclave in the right state whose lock is free, and a free page `t` of another, unlocked metadata region or of
the same region, `assign_thread` succeeds, counts the thread and reserves the page. -/
def C41_statement (g : Cfg) : Prop :=
  ∀ c e t m, LockWords g m → m.owner g 0 = nullEnclaveId → EnclavePage g m e → m.mem e.toNat = 0 → m.initialized e ≠ 0 → MetaPage g m t.toNat →
    pageIndex g t.toNat + 1 ≤ 2 ^ g.sp → m.mem (entryA g t.toNat) = 0 →
    ∃ m', call g c (.assignThread e t) m = some (monitorOk, m') ∧ m'.threads e = m.threads e + 1 ∧ m'.mem (entryA g t.toNat) = (e ||| threadPageType)

/-- What holds instead, on machines with single-stripe regions: neither `assign_thread` nor `load_thread` ever succeeds, and they change nothing
(but, if the enclave's lock word is neither 0 nor 1, that word). Missing: everything the calls are for. -/
theorem C41_no_threads_partial (h : g.WF) (hss : g.SingleStripe) (hso : g.ShiftOk) {c : Nat} {e : W} {k : Call} {m : Machine} (hl : LockWords g m)
    (h0 : m.owner g 0 = nullEnclaveId) (hk : (∃ t, k = .assignThread e t) ∨ ∃ t p1 p2 p3 p4, k = .loadThread e t p1 p2 p3 p4) :
    ∃ v m', call g c k m = some (v, m') ∧ v ≠ monitorOk ∧ (m' = m ∨ (m.mem e.toNat ≠ 0 ∧ m.mem e.toNat ≠ 1 ∧ m' = m.st e.toNat 1)) := by
  have key : ∀ {p : Prog W}, (∃ v m', run g c p m = some (v, m') ∧ v ≠ monitorOk ∧ LockTried g m m' e) →
      ∃ v m', run g c p m = some (v, m') ∧ v ≠ monitorOk ∧ (m' = m ∨ (m.mem e.toNat ≠ 0 ∧ m.mem e.toNat ≠ 1 ∧ m' = m.st e.toNat 1)) := by
    rintro p ⟨v, m', q1, q2, q3⟩
    refine ⟨v, m', q1, q2, ?_⟩
    rcases q3 with q3 | ⟨-, q4, q5, q6⟩
    · exact Or.inl q3
    · exact Or.inr ⟨q4, q5, q6⟩
  rcases hk with ⟨t, rfl⟩ | ⟨t, p1, p2, p3, p4, rfl⟩
  · exact key (run_assignThread ⟨h, hss, hso⟩ c e t hl h0)
  · exact key (run_loadThread ⟨h, hss, hso⟩ c e t p1 p2 p3 p4 hl h0)

/-- An enclave created at 0x9000 in metadata region 1 (reachable), marked initialized. -/
def threadM : Machine := ((call toyG 0 (.createEnclave 0x9000 0 4095 0 true) metaM).map Prod.snd).getD metaM |>.st 0x9010 1

set_option maxRecDepth 100000 in
theorem threadM_facts : (∀ i, i < 8 → threadM.mem (lockA toyG i) = 0) ∧ threadM.owner toyG 0 = nullEnclaveId ∧ toyG.regions = 8 ∧
    threadM.mem 0x9000 = 0 ∧ threadM.initialized 0x9000 = 1 ∧ threadM.locked toyG (regionOf toyG 0x9000) = false ∧
    threadM.owner toyG (regionOf toyG 0x9000) = metadataEnclaveId ∧ threadM.mem (entryA toyG 0x9000) = ((0x9000 : W) ||| enclavePageType) ∧
    threadM.locked toyG (regionOf toyG 0xa000) = false ∧ threadM.owner toyG (regionOf toyG 0xa000) = metadataEnclaveId ∧
    pageIndex toyG 0xa000 + 1 ≤ 2 ^ toyG.sp ∧ threadM.mem (entryA toyG 0xa000) = 0 ∧ 0xa000 < toyG.dramSize.toNat := by decide +kernel

/-- C41 is false of the code. -/
theorem C41_statement_false : ∃ g, g.WF ∧ g.SingleStripe ∧ ¬ C41_statement g := by
  refine ⟨toyG, toy_wf, toy_single, fun hst => ?_⟩
  obtain ⟨f1, f2, f3, f4, f5, f6, f7, f8, f9, f10, f11, f12, f13⟩ := threadM_facts
  have hl : LockWords toyG threadM := fun i hi => Or.inl (f1 i (by rw [f3] at hi; exact hi))
  obtain ⟨m', q1, -⟩ := hst 0 0x9000 0xa000 threadM hl f2 ⟨⟨by decide, by rw [show (0x9000 : W).toNat = 0x9000 from rfl]; omega, f6, f7⟩, f8⟩ f4
    (by rw [f5]; decide) ⟨by decide, f13, f9, f10⟩ f11 f12
  obtain ⟨v, m'', q2, q3, -⟩ := C41_no_threads_partial toy_wf toy_single toy_shiftOk (c := 0) (e := 0x9000) hl f2 (Or.inl ⟨0xa000, rfl⟩)
  have q2 : call toyG 0 (.assignThread 0x9000 0xa000) threadM = some (v, m'') := q2
  rw [q1] at q2
  injection q2 with q2; injection q2 with q2 _
  exact q3 q2.symm

/-! ### C42 -/

/-- C42, in full: `accept_thread` changes only the thread's page, its map entry, and the locks of existing regions. -/
def C42_statement (g : Cfg) (m1 : Machine) : Prop :=
  ∀ l m2 c t info v m3, OsHist g m1 l m2 → c < g.cores → call g c (.acceptThread t info) m2 = some (v, m3) →
    ∀ x, x < g.dramSize.toNat → m3.mem x ≠ m2.mem x → m2.owner g (regionOf g t.toNat) = metadataEnclaveId ∧
      ((t.toNat ≤ x ∧ x < t.toNat + 4096) ∨ x = entryA g t.toNat ∨ ∃ i, i < g.regions ∧ x = lockA g i)

/-- The words that `accept_thread(t, info)` can change: the lock words of existing regions, the word that would be the lock of a region number `info`,
the map entry of `t`, the first 48 bytes at `t`. -/
def acceptSet (g : Cfg) (t info : W) (x : Nat) : Prop :=
  (∃ i, i < g.regions ∧ x = lockA g i) ∨ x = (regionA g info + offLock).toNat ∨ x = (metadataPageInfoFor g t).toNat ∨
  ∃ off : W, off.toNat ≤ 40 ∧ off.toNat % 8 = 0 ∧ x = (t + off).toNat

theorem touches_acceptPages {info : W} (t e : W) : (acceptMetadataPages g t threadMetadataPages e threadPageType).Touches (acceptSet g t info) := by
  unfold acceptMetadataPages assignMetadataPages
  refine Touches.ite (fun _ => Touches.pure _) fun _ => ?_
  refine Touches.bind ?_ fun b => Touches.ite (fun _ => ?_) fun _ => Touches.pure _
  · rw [show threadMetadataPages.toNat = 1 from by decide]
    unfold pagesEmptyLoop
    exact Touches.bind (touches_load _) fun v => Touches.ite (fun _ => Touches.pure _) fun _ => by unfold pagesEmptyLoop; exact Touches.pure _
  · refine Touches.bind (touches_store (Or.inr (Or.inr (Or.inl rfl)))) fun _ => Touches.bind ?_ fun _ => Touches.pure _
    rw [show threadMetadataPages.toNat - 1 = 0 from by decide]
    unfold innerPagesLoop; exact Touches.pure _

/-- C42, the part that holds: whatever the state, a call that completes changes nothing but the words above and no register, and calls with an `info` that is
not a page of DRAM fail without effect. Missing: `t` is not validated, and the lock that is taken is not that of a region. -/
theorem C42_accept_thread_partial (h : g.WF) {c : Nat} {t info : W} {m m' : Machine} {v : W} (hr : call g c (.acceptThread t info) m = some (v, m')) :
    OnlyMem (acceptSet g t info) m m' ∧ SameRegs m m' ∧ (¬ DramPage g info → v ≠ monitorOk ∧ m' = m) := by
  have hclear : ∀ x, (clearLock g (dramRegionFor g x)).Touches (acceptSet g t info) := fun x =>
    touches_store (Or.inl ⟨_, dramRegionFor_lt h x, lockA_toNat h (dramRegionFor_lt h x)⟩)
  have htas : ∀ x, (tasLock g (dramRegionFor g x)).Touches (acceptSet g t info) := fun x =>
    touches_tas (Or.inl ⟨_, dramRegionFor_lt h x, lockA_toNat h (dramRegionFor_lt h x)⟩)
  have hst : ∀ {off v : W}, off.toNat ≤ 40 → off.toNat % 8 = 0 → (store (t + off) v).Touches (acceptSet g t info) := fun h1 h2 =>
    touches_store (Or.inr (Or.inr (Or.inr ⟨_, h1, h2, rfl⟩)))
  have hassign : ∀ e, (acceptMetadataPages g t threadMetadataPages e threadPageType).Touches (acceptSet g t info) := touches_acceptPages t
  have hall : (acceptThread g t info).Touches (acceptSet g t info) := by
    unfold acceptThread
    refine Touches.ite (fun _ => Touches.pure _) fun _ => ?_
    refine Touches.bind ?_ fun e => ?_
    · unfold currentEnclave
      exact Touches.bind ⟨trivial, fun _ => trivial⟩ fun _ => touches_load _
    refine Touches.bind (touches_tas (Or.inr (Or.inl rfl))) fun b => Touches.ite (fun _ => Touches.pure _) fun _ => ?_
    refine Touches.bind (touches_load _) fun o => Touches.ite (fun _ => Touches.bind (hclear _) fun _ => Touches.pure _) fun _ => ?_
    refine Touches.bind (htas _) fun b => Touches.ite (fun _ => Touches.bind (hclear _) fun _ => Touches.pure _) fun _ => ?_
    refine Touches.bind (hassign e) fun res => Touches.ite (fun _ => Touches.bind (hclear _) fun _ => Touches.bind (hclear _) fun _ => Touches.pure _) fun _ => ?_
    refine Touches.bind (hst (by decide) (by decide)) fun _ => Touches.bind (touches_load _) fun _ => Touches.bind (touches_load _) fun _ =>
      Touches.bind (touches_load _) fun _ => Touches.bind (touches_load _) fun _ => Touches.bind (touches_load _) fun _ => ?_
    refine Touches.bind (hst (by decide) (by decide)) fun _ => Touches.bind (hst (by decide) (by decide)) fun _ =>
      Touches.bind (hst (by decide) (by decide)) fun _ => Touches.bind (hst (by decide) (by decide)) fun _ => Touches.bind (hst (by decide) (by decide)) fun _ => ?_
    exact Touches.bind (hclear _) fun _ => Touches.bind (hclear _) fun _ => Touches.pure _
  have hr' : run g c (acceptThread g t info) m = some (v, m') := hr
  refine ⟨(Touches.run hall hr').1, (Touches.run hall hr').2, fun hn => ?_⟩
  unfold acceptThread at hr'
  rw [dramPage_iff] at hn
  rw [if_pos (by
    cases h1 : isDramAddress g info <;> cases h2 : isPageAligned info <;> simp_all), run_pure] at hr'
  injection hr' with hr'; injection hr' with r1 r2
  subst r1; exact ⟨by decide, r2.symm⟩

theorem run_bind_inv {α β : Type} {c : Nat} {p : Prog α} {f : α → Prog β} {m : Machine} {y : β × Machine} (hr : run g c (p >>= f) m = some y) :
    ∃ a m1, run g c p m = some (a, m1) ∧ run g c (f a) m1 = some y := by
  rw [run_bind] at hr
  cases hp : run g c p m with
  | none => rw [hp] at hr; cases hr
  | some x => rw [hp] at hr; exact ⟨x.1, x.2, rfl, hr⟩

theorem run_store_inv {c : Nat} {a v : W} {m m' : Machine} {u : Unit} (hr : run g c (store a v) m = some (u, m')) : m' = m.st a.toNat v := by
  cases h1 : okAddr g a
  · simp only [store, run, exec, h1] at hr; cases hr
  · rw [run_store _ _ _ _ _ h1] at hr
    injection hr with hr; injection hr with _ hr; exact hr.symm

theorem run_load_inv {c : Nat} {a v : W} {m m' : Machine} (hr : run g c (load a) m = some (v, m')) : v = m.mem a.toNat ∧ m' = m := by
  cases h1 : okAddr g a
  · simp only [load, act, run, exec, h1] at hr; cases hr
  · rw [run_load _ _ _ _ h1] at hr
    injection hr with hr; injection hr with h2 hr; exact ⟨h2.symm, hr.symm⟩

theorem add_off_ne {t a b : W} (h : a ≠ b) : (t + a).toNat ≠ (t + b).toNat := fun hh =>
  h (by have := congrArg (fun x => x - t) (BitVec.eq_of_toNat_eq hh)
        simpa [BitVec.add_comm t, BitVec.add_sub_cancel] using this)

/-- What a successful `accept_thread(t, info)` leaves behind, whatever the state: the thread record at `t` is unlocked and holds the entry point, entry stack,
fault handler, fault stack and page table of the caller's `thread_init_info` at `info`, in that order. (If the five words at `info` are not among the words
the call writes, and the record at `t` is not on top of region locks, which the call clears last.) -/
theorem C42_copies (h : g.WF) {c : Nat} {t info : W} {m m' : Machine} (hr : call g c (.acceptThread t info) m = some (monitorOk, m'))
    (hi : ∀ off : W, off.toNat ≤ 32 → off.toNat % 8 = 0 → ¬ acceptSet g t info (info + off).toNat)
    (ht : ∀ off : W, off.toNat ≤ 40 → off.toNat % 8 = 0 → ∀ i, i < g.regions → (t + off).toNat ≠ lockA g i) :
    m'.mem (t + 0).toNat = 0 ∧ m'.mem (t + 8).toNat = m.mem (info + 0).toNat ∧ m'.mem (t + 16).toNat = m.mem (info + 8).toNat ∧
    m'.mem (t + 24).toNat = m.mem (info + 16).toNat ∧ m'.mem (t + 32).toNat = m.mem (info + 24).toNat ∧ m'.mem (t + 40).toNat = m.mem (info + 32).toNat := by
  have hclear : ∀ x, (clearLock g (dramRegionFor g x)).Touches (acceptSet g t info) := fun x =>
    touches_store (Or.inl ⟨_, dramRegionFor_lt h x, lockA_toNat h (dramRegionFor_lt h x)⟩)
  have htas : ∀ x, (tasLock g (dramRegionFor g x)).Touches (acceptSet g t info) := fun x =>
    touches_tas (Or.inl ⟨_, dramRegionFor_lt h x, lockA_toNat h (dramRegionFor_lt h x)⟩)
  have hnp : ∀ {v : W}, v ≠ monitorOk → ∀ {m1 : Machine}, run g c (pure v : Prog W) m1 = some (monitorOk, m') → False := by
    intro v hv m1 hp
    rw [run_pure] at hp; injection hp with hp; injection hp with hp _; exact hv hp
  have hr' : run g c (acceptThread g t info) m = some (monitorOk, m') := hr
  unfold acceptThread at hr'
  split at hr'
  · exact (hnp (by decide) hr').elim
  obtain ⟨e, m1, q1, hr'⟩ := run_bind_inv hr'
  have o1 : OnlyMem (acceptSet g t info) m m1 := by
    refine (Touches.run (p := currentEnclave g) ?_ q1).1
    unfold currentEnclave
    exact Touches.bind ⟨trivial, fun _ => trivial⟩ fun _ => touches_load _
  dsimp only at hr'
  obtain ⟨b2, m2, q2, hr'⟩ := run_bind_inv hr'
  have o2 := (Touches.run (S := acceptSet g t info) (touches_tas (Or.inr (Or.inl rfl))) q2).1
  split at hr'
  · exact (hnp (by decide) hr').elim
  obtain ⟨o, m3, q3, hr'⟩ := run_bind_inv hr'
  have o3 := (Touches.run (S := acceptSet g t info) (touches_load _) q3).1
  split at hr'
  · obtain ⟨_, _, _, hr'⟩ := run_bind_inv hr'
    exact (hnp (by decide) hr').elim
  obtain ⟨b4, m4, q4, hr'⟩ := run_bind_inv hr'
  have o4 := (Touches.run (htas _) q4).1
  split at hr'
  · obtain ⟨_, _, _, hr'⟩ := run_bind_inv hr'
    exact (hnp (by decide) hr').elim
  obtain ⟨res, m5, q5, hr'⟩ := run_bind_inv hr'
  have o5 := (Touches.run (touches_acceptPages (info := info) t e) q5).1
  split at hr'
  · rename_i hres
    obtain ⟨_, _, _, hr'⟩ := run_bind_inv hr'
    obtain ⟨_, _, _, hr'⟩ := run_bind_inv hr'
    exact (hnp (bne_iff_ne.1 hres) hr').elim
  obtain ⟨_, m6, q6, hr'⟩ := run_bind_inv hr'
  have s6 := run_store_inv q6
  have o6 := (Touches.run (S := acceptSet g t info) (touches_store (Or.inr (Or.inr (Or.inr ⟨offThreadLock, by decide, by decide, rfl⟩)))) q6).1
  have hval : ∀ off : W, off.toNat ≤ 32 → off.toNat % 8 = 0 → m6.mem (info + off).toNat = m.mem (info + off).toNat := fun off h1 h2 => by
    have hn := hi off h1 h2
    rw [o6 _ hn, o5 _ hn, o4 _ hn, o3 _ hn, o2 _ hn, o1 _ hn]
  obtain ⟨w1, k1, p1, hr'⟩ := run_bind_inv hr'
  obtain ⟨v1, u1⟩ := run_load_inv p1
  rw [u1] at hr'
  obtain ⟨w2, k2, p2, hr'⟩ := run_bind_inv hr'
  obtain ⟨v2, u2⟩ := run_load_inv p2
  rw [u2] at hr'
  obtain ⟨w3, k3, p3, hr'⟩ := run_bind_inv hr'
  obtain ⟨v3, u3⟩ := run_load_inv p3
  rw [u3] at hr'
  obtain ⟨w4, k4, p4, hr'⟩ := run_bind_inv hr'
  obtain ⟨v4, u4⟩ := run_load_inv p4
  rw [u4] at hr'
  obtain ⟨w5, k5, p5, hr'⟩ := run_bind_inv hr'
  obtain ⟨v5, u5⟩ := run_load_inv p5
  rw [u5] at hr'
  obtain ⟨_, n1, r1, hr'⟩ := run_bind_inv hr'
  have t1 := run_store_inv r1
  obtain ⟨_, n2, r2, hr'⟩ := run_bind_inv hr'
  have t2 := run_store_inv r2
  obtain ⟨_, n3, r3, hr'⟩ := run_bind_inv hr'
  have t3 := run_store_inv r3
  obtain ⟨_, n4, r4, hr'⟩ := run_bind_inv hr'
  have t4 := run_store_inv r4
  obtain ⟨_, n5, r5, hr'⟩ := run_bind_inv hr'
  have t5 := run_store_inv r5
  obtain ⟨_, n6, r6, hr'⟩ := run_bind_inv hr'
  rw [run_clearLock h (dramRegionFor_lt h _)] at r6
  injection r6 with r6; injection r6 with _ t6
  obtain ⟨_, n7, r7, hr'⟩ := run_bind_inv hr'
  rw [run_clearLock h (dramRegionFor_lt h _)] at r7
  injection r7 with r7; injection r7 with _ t7
  rw [run_pure] at hr'
  injection hr' with hr'; injection hr' with _ t8
  have e1 := hval 0 (by decide) (by decide)
  have e2 := hval 8 (by decide) (by decide)
  have e3 := hval 16 (by decide) (by decide)
  have e4 := hval 24 (by decide) (by decide)
  have e5 := hval 32 (by decide) (by decide)
  have hfin : ∀ off : W, off.toNat ≤ 40 → off.toNat % 8 = 0 → m'.mem (t + off).toNat = n5.mem (t + off).toNat := fun off h1 h2 => by
    rw [← t8, ← t7, ← t6]
    show upd (upd n5.mem _ _) _ _ _ = _
    rw [upd_ne _ _ (ht off h1 h2 _ (dramRegionFor_lt h _)), upd_ne _ _ (ht off h1 h2 _ (dramRegionFor_lt h _))]
  have hx : ∀ x, n5.mem x = upd (upd (upd (upd (upd (upd m5.mem (t + 0).toNat 0) (t + 8).toNat w1) (t + 16).toNat w2) (t + 24).toNat w3) (t + 32).toNat w4) (t + 40).toNat w5 x := by
    intro x; rw [t5, t4, t3, t2, t1, s6]; rfl
  refine ⟨?_, ?_, ?_, ?_, ?_, ?_⟩
  · rw [hfin 0 (by decide) (by decide), hx, upd_ne _ _ (add_off_ne (by decide)), upd_ne _ _ (add_off_ne (by decide)), upd_ne _ _ (add_off_ne (by decide)),
      upd_ne _ _ (add_off_ne (by decide)), upd_ne _ _ (add_off_ne (by decide)), upd_same]
  · rw [hfin 8 (by decide) (by decide), hx, upd_ne _ _ (add_off_ne (by decide)), upd_ne _ _ (add_off_ne (by decide)), upd_ne _ _ (add_off_ne (by decide)),
      upd_ne _ _ (add_off_ne (by decide)), upd_same, v1]; exact e1
  · rw [hfin 16 (by decide) (by decide), hx, upd_ne _ _ (add_off_ne (by decide)), upd_ne _ _ (add_off_ne (by decide)), upd_ne _ _ (add_off_ne (by decide)),
      upd_same, v2]; exact e2
  · rw [hfin 24 (by decide) (by decide), hx, upd_ne _ _ (add_off_ne (by decide)), upd_ne _ _ (add_off_ne (by decide)), upd_same, v3]; exact e3
  · rw [hfin 32 (by decide) (by decide), hx, upd_ne _ _ (add_off_ne (by decide)), upd_same, v4]; exact e4
  · rw [hfin 40 (by decide) (by decide), hx, upd_same, v5]; exact e5

/-- The hypotheses are met right after boot, thread page 0x9000, information at 0x1000: the call succeeds. -/
example : (call toyG 0 (.acceptThread 0x9000 0x1000) ((toyM.st 0x1000 7).st 0x1008 8)).map (fun x => (x.1, x.2.mem 0x9008, x.2.mem 0x9010)) = some (monitorOk, 7, 8) ∧
    (∀ off : W, off.toNat ≤ 32 → off.toNat % 8 = 0 → ¬ acceptSet toyG 0x9000 0x1000 ((0x1000 : W) + off).toNat) ∧
    (∀ off : W, off.toNat ≤ 40 → off.toNat % 8 = 0 → ∀ i, i < toyG.regions → ((0x9000 : W) + off).toNat ≠ lockA toyG i) := by
  have hf : toyG.regions = 8 ∧ (∀ i, i < 8 → lockA toyG i < 4096) ∧ (regionA toyG 0x1000 + offLock).toNat = 163968 ∧ (metadataPageInfoFor toyG 0x9000).toNat = 32776 := by
    set_option maxRecDepth 100000 in decide +kernel
  obtain ⟨f1, f2, f3, f4⟩ := hf
  have ha : ∀ off : W, off.toNat ≤ 32 → ((0x1000 : W) + off).toNat = 0x1000 + off.toNat := fun off h => by
    rw [BitVec.toNat_add, show (0x1000 : W).toNat = 0x1000 from rfl]; omega
  have hb : ∀ off : W, off.toNat ≤ 40 → ((0x9000 : W) + off).toNat = 0x9000 + off.toNat := fun off h => by
    rw [BitVec.toNat_add, show (0x9000 : W).toNat = 0x9000 from rfl]; omega
  refine ⟨by set_option maxRecDepth 100000 in decide +kernel, fun off h1 _ hx => ?_, fun off h1 _ i hi => ?_⟩
  · rw [ha off h1] at hx
    rcases hx with ⟨i, hi, hx⟩ | hx | hx | ⟨o, ho, -, hx⟩
    · have := f2 i (by rw [f1] at hi; exact hi); omega
    · rw [f3] at hx; omega
    · rw [f4] at hx; omega
    · rw [hb o ho] at hx; omega
  · rw [hb off h1]
    have := f2 i (by rw [f1] at hi; exact hi); omega

set_option maxRecDepth 100000 in
/-- After boot, the OS calls `accept_thread` with thread ID 0x40: the call succeeds and changes the enclave ID of core 0 in the monitor's tables. -/
theorem accept_overwrites : (call toyG 0 (.acceptThread 0x40 0x1000) toyM).map (fun x => (x.1, x.2.running 0)) = some (monitorOk, 3) := by decide +kernel

/-- C42 is false of the code, in the state right after boot. -/
theorem C42_statement_false : ∃ g m, FromBoot g m ∧ ¬ C42_statement g m := by
  refine ⟨toyG, toyM, toy_fromBoot, fun hst => ?_⟩
  have ht := accept_overwrites
  have hf : toyM.mem 0 = 0 ∧ 0 < toyG.dramSize.toNat ∧ toyM.owner toyG (regionOf toyG (0x40 : W).toNat) = nullEnclaveId := by
    set_option maxRecDepth 100000 in decide +kernel
  cases hc : call toyG 0 (.acceptThread 0x40 0x1000) toyM with
  | none => rw [hc] at ht; cases ht
  | some x =>
      rw [hc] at ht
      simp only [Option.map_some, Option.some.injEq, Prod.mk.injEq] at ht
      have h3 : x.2.mem 0 = 3 := ht.2
      have := (hst [] toyM 0 _ _ x.1 x.2 (.nil _) (by set_option maxRecDepth 100000 in decide +kernel) hc 0 hf.2.1 (by rw [h3, hf.1]; decide)).1
      rw [hf.2.2] at this
      exact absurd this (by decide)

end Sanctum
