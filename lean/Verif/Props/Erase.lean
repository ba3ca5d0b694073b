import Verif.Props.JunkBoot
import Verif.Props.Frame
import Verif.Spec.Erase
/-
C94: refused calls and questions leave no trace in what happens later.
-/
namespace Sanctum
open Machine

variable {g : Cfg}

theorem Traceless.cases {k : Call} (h : Traceless g k) : Sober g k ∨ ∃ e a o d, k = .copyDebugEnclavePage e a o d ∧ e ≠ nullEnclaveId := by
  cases k with
  | copyDebugEnclavePage e a o d =>
      by_cases he : e = nullEnclaveId
      · exact Or.inl ⟨he, h.resolve_left fun hh => hh he⟩
      · exact Or.inr ⟨e, a, o, d, rfl, he⟩
  | _ => exact Or.inl h

theorem Traceless.covered {k : Call} (h : Traceless g k) (hs : g.WF) : Covered g k := by
  rcases h.cases with h | ⟨e, a, o, d, rfl, he⟩
  · exact h.covered hs
  · exact Or.inl he

/-- A step of the invariant. -/
theorem traceless_step (hw : g.WF) {m m' : Machine} {c : Nat} {k : Call} {v : W} (hi : Inv g m) (ha : Akin g m m) (hc : c < g.coreCount.toNat)
    (hk : Traceless g k) (hr : call g c k m = some (v, m')) : Inv g m' ∧ Akin g m' m' := by
  refine ⟨(step_call hw hc (hk.covered hw) hi hr).inv, ?_⟩
  rcases hk.cases with hk | ⟨e, a, o, d, rfl, he⟩
  · obtain ⟨w, n, n', q1, q2, q3⟩ := junk_call hw hi ha hc hk
    rw [hr] at q1 q2
    injection q1 with q1; injection q1 with _ q1
    injection q2 with q2; injection q2 with _ q2
    rw [← q1, ← q2] at q3; exact q3
  · have h2 := run_copyDebug_any hw c e a o d hi.locks hr
    by_cases hv : v = monitorOk
    · exact absurd ⟨he, h2.2 hv⟩ (hi.not_valid hw e)
    · rw [h2.1 hv]; exact ha

theorem traceless_noop {m : Machine} {k : Call} (ha : Akin g m m) (hk : Traceless g k) : NoopOnFailure g m k := by
  have hlock : ∀ e : W, EnclavePage g m e → m.mem e.toNat = 0 ∨ m.mem e.toNat = 1 := fun e he =>
    Or.inl (ha.lock e he.1.1 he.1.2.1 he.1.2.2.2 he.2).2.1
  cases k with
  | acceptThread t i => exact hk
  | createEnclave e b k n d => exact ⟨hk.1, hk.2.1⟩
  | loadThread e t a b c d => exact ⟨hk.1, hk.2, hlock e⟩
  | assignThread e t => exact ⟨hk.1, hk.2, hlock e⟩
  | _ => exact trivial

theorem query_noop (hw : g.WF) {m m' : Machine} {c : Nat} (hc : c < g.coreCount.toNat) {k : Call} {v : W} (hi : Inv g m) (hq : k.isQuery = true)
    (hr : call g c k m = some (v, m')) : m' = m := by
  have hp : ∀ {x y : W} {p : Option (W × Machine)}, p = some (v, m') → p = some (x, m) → m' = m := by
    intro x y p h1 h2
    rw [h1] at h2; injection h2 with h2; injection h2
  cases k with
  | dramSize => exact hp (y := 0) hr rfl
  | dramRegionMask => exact hp (y := 0) hr rfl
  | metadataRegionPages => exact hp (y := 0) hr rfl
  | metadataRegionStart => exact hp (y := 0) hr rfl
  | threadMetadataPages => exact hp (y := 0) hr rfl
  | enclaveMetadataPages n => exact hp (y := 0) hr rfl
  | dramRegionCheckOwnership r => exact hp (y := 0) hr (run_checkOwnership hw hc r hi.locks)
  | dramRegionState r => exact hp (y := 0) hr (run_state hw c r hi.locks)
  | dramRegionOwner r => exact hp (y := 0) hr (run_owner hw c r hi.locks)
  | _ => cases hq

/-- What does not matter does nothing. -/
theorem not_matters_noop (hw : g.WF) {m m' : Machine} {c : Nat} (hc : c < g.coreCount.toNat) {k : Call} {v : W} (hi : Inv g m) (ha : Akin g m m)
    (hk : Traceless g k) (hm : (Item.call ⟨c, k, v⟩).matters = false) (hr : call g c k m = some (v, m')) : m' = m := by
  by_cases hq : k.isQuery = true
  · exact query_noop hw hc hi hq hr
  · refine C22_failure_is_noop_partial hw hc (hi.stateOk hw hc) (traceless_noop ha hk) hr ?_
    intro hv
    unfold Item.matters at hm
    simp [hq, hv] at hm

/-- Leaving out one call that does nothing, or keeping it: the induction. -/
theorem story_leaves_out (hw : g.WF) {m m2 : Machine} {l : List Item} (hs : Story g m l m2) : ∀ {l' : List Item}, Inv g m → Akin g m m →
    AllCalls (Traceless g) l → LeavesOut l l' → Story g m l' m2 := by
  induction hs with
  | nil m =>
      intro l' _ _ _ h
      rw [List.sublist_nil.1 h.1]
      exact .nil m
  | @call m m' m'' c k v l hc hr hrest ih =>
      intro l' hi ha hk h
      have hkk := hk _ List.mem_cons_self
      have hk' : AllCalls (Traceless g) l := fun x hx => hk x (List.mem_cons_of_mem _ hx)
      obtain ⟨hi', ha'⟩ := traceless_step hw hi ha hc hkk hr
      obtain ⟨h1, h2⟩ := h
      cases h1 with
      | cons _ h1 =>
          cases hm : (Item.call ⟨c, k, v⟩).matters with
          | true =>
              rw [List.filter_cons_of_pos hm] at h2
              have := (h1.filter Item.matters).length_le
              rw [h2, List.length_cons] at this
              omega
          | false =>
              rw [List.filter_cons_of_neg (by rw [hm]; decide)] at h2
              have e := not_matters_noop hw hc hi ha hkk hm hr
              rw [e] at ih hi' ha'
              exact ih hi ha hk' ⟨h1, h2⟩
      | cons_cons _ h1 =>
          refine .call hc hr (ih hi' ha' hk' ⟨h1, ?_⟩)
          rw [List.filter_cons, List.filter_cons] at h2
          split at h2
          · injection h2
          · exact h2
  | @store m m'' a v l h1 h2 h3 hrest ih =>
      intro l' hi ha hk h
      have hk' : AllCalls (Traceless g) l := fun x hx => hk x (List.mem_cons_of_mem _ hx)
      have hst : OsStore g m (m.st a v) := ⟨a, v, h1, h2, h3, rfl⟩
      have hi' := hst.inv hw hi
      have ha' : Akin g (m.st a v) (m.st a v) := by
        refine akin_os hw hi ha (mu := upd m.mem a v) (mu' := upd m.mem a v) (fun x => ?_) (fun x => ?_) <;>
        · by_cases hx : x = a
          · subst hx; exact Or.inr ⟨h2, h1, h3⟩
          · exact Or.inl (upd_ne _ _ hx)
      obtain ⟨p1, p2⟩ := h
      cases p1 with
      | cons _ p1 =>
          rw [List.filter_cons_of_pos (by rfl)] at p2
          have := (p1.filter Item.matters).length_le
          rw [p2, List.length_cons] at this
          omega
      | cons_cons _ p1 =>
          refine .store h1 h2 h3 (ih hi' ha' hk' ⟨p1, ?_⟩)
          rw [List.filter_cons_of_pos (by rfl), List.filter_cons_of_pos (by rfl)] at p2
          injection p2

/-- A story is a history of the kind the other theorems are about. -/
theorem Story.osHist {m m2 : Machine} {l : List Item} (h : Story g m l m2) : OsHist g m (l.filterMap Item.event?) m2 := by
  induction h with
  | nil m => exact .nil m
  | call hc hr _ ih => exact .cons hc hr ih
  | store h1 h2 h3 _ ih => exact .soft ⟨_, _, h1, h2, h3, rfl⟩ ih

/-! ### C94 -/

/-- C94, in full: whatever calls the OS makes. -/
def C94_statement (g : Cfg) : Prop := ∀ m1 m2 l l', FromBoot g m1 → Story g m1 l m2 → LeavesOut l l' → Story g m1 l' m2

/-- C94 for the calls in `Traceless`: in every history since boot, any of the refused calls and of the questions can be left out. All other calls complete
and return the same, software stores the same, and the machine is exactly the same in the end. -/
theorem C94_no_trace_partial {m1 m2 : Machine} {l l' : List Item} (hb : FromBoot g m1) (hs : Story g m1 l m2) (hk : AllCalls (Traceless g) l)
    (hl : LeavesOut l l') : Story g m1 l' m2 :=
  story_leaves_out hb.wf hs hb.inv (hb.akin ⟨fun _ _ => rfl, rfl⟩) hk hl

/-! ### What fails: `accept_thread` -/

/-- C94 fails with `accept_thread`: a refused one leaves a word set in memory (see C22). -/
theorem C94_statement_false : ¬ C94_statement toyG := by
  intro hst
  have ht := accept_leaves_trace
  cases hc : call toyG 0 (.acceptThread 0x9000 0x1000) (toyM.st 0x8008 5) with
  | none => rw [hc] at ht; cases ht
  | some x =>
      rw [hc] at ht
      simp only [Option.map_some, Option.some.injEq, Prod.mk.injEq] at ht
      obtain ⟨v, m2⟩ := x
      obtain ⟨t1, t2, t3⟩ := ht
      have hh : toyG.monitorTop.toNat ≤ 0x8008 ∧ 0x8008 < toyG.dramSize.toNat ∧ toyM.owner toyG (regionOf toyG 0x8008) = nullEnclaveId ∧ 0 < toyG.coreCount.toNat := by
        set_option maxRecDepth 100000 in decide +kernel
      have h1 : Story toyG toyM [.store 0x8008 5, .call ⟨0, .acceptThread 0x9000 0x1000, v⟩] m2 :=
        .store hh.1 hh.2.1 hh.2.2.1 (.call hh.2.2.2 hc (.nil m2))
      have h2 := hst toyM m2 _ [.store 0x8008 5] toy_fromBoot h1 ⟨.cons_cons _ (.cons _ .slnil), by
        rw [List.filter_cons_of_pos (by rfl), List.filter_cons_of_pos (by rfl), List.filter_cons_of_neg]
        have t1 : (v == monitorOk) = false := t1
        simp [Item.matters, t1]⟩
      cases h2 with
      | store _ _ _ h2 =>
          cases h2
          rw [t2] at t3; exact absurd t3 (by decide)

/-! ### The hypotheses are met -/

/-- The items of calls. -/
def itemsOf (l : List (Nat × Call)) (vs : List W) : List Item := List.zipWith (fun x v => .call ⟨x.1, x.2, v⟩) l vs

theorem story_of_runCalls {l : List (Nat × Call)} : ∀ {m m2 : Machine} {vs : List W}, runCalls g l m = some (vs, m2) → (∀ x ∈ l, x.1 < g.coreCount.toNat) →
    Story g m (itemsOf l vs) m2 := by
  induction l with
  | nil =>
      intro m m2 vs hr _
      simp only [runCalls, Option.some.injEq, Prod.mk.injEq] at hr
      obtain ⟨rfl, rfl⟩ := hr
      exact .nil m
  | cons x l ih =>
      intro m m2 vs hr hc
      obtain ⟨c, k⟩ := x
      rw [runCalls] at hr
      split at hr
      · rename_i v m1 hcall
        cases hrest : runCalls g l m1 with
        | none => rw [hrest] at hr; simp at hr
        | some y =>
            rw [hrest] at hr
            simp only [Option.map_some, Option.some.injEq, Prod.mk.injEq] at hr
            obtain ⟨rfl, rfl⟩ := hr
            exact .call (hc (c, k) (by simp)) hcall (ih hrest (fun x hx => hc x (by simp [hx])))
      · simp at hr

/-- A question, a region freed that is not blocked, a block, the same block again, by another core, a debug copy for an enclave that does not exist, a free. -/
def clumsyCalls : List (Nat × Call) :=
  [(1, .dramRegionOwner 3), (0, .freeDramRegion 1), (0, .blockDramRegion 1), (2, .blockDramRegion 1), (3, .copyDebugEnclavePage 0x18000 0x18000 0x10000 true),
   (0, .freeDramRegion 1)]

set_option maxRecDepth 100000 in
theorem clumsy_runs : (runCalls toyG clumsyCalls (toyM.st 0x8008 5)).isSome = true ∧
    (after toyG clumsyCalls (toyM.st 0x8008 5)).1 = [0, monitorInvalidState, 0, monitorAccessDenied, monitorInvalidState, 0] := by decide +kernel

/-- Software stores a word; only the block and the free have an effect. -/
example : Story toyG toyM [.store 0x8008 5, .call ⟨0, .blockDramRegion 1, 0⟩, .call ⟨0, .freeDramRegion 1, 0⟩] (after toyG clumsyCalls (toyM.st 0x8008 5)).2 := by
  have hh : toyG.monitorTop.toNat ≤ 0x8008 ∧ 0x8008 < toyG.dramSize.toNat ∧ toyM.owner toyG (regionOf toyG 0x8008) = nullEnclaveId ∧
      ∀ x ∈ clumsyCalls, x.1 < toyG.coreCount.toNat := by
    set_option maxRecDepth 100000 in decide +kernel
  have h1 : Story toyG (toyM.st 0x8008 5) (itemsOf clumsyCalls (after toyG clumsyCalls (toyM.st 0x8008 5)).1) (after toyG clumsyCalls (toyM.st 0x8008 5)).2 :=
    story_of_runCalls (after_ok clumsy_runs.1) hh.2.2.2
  rw [clumsy_runs.2] at h1
  refine C94_no_trace_partial (l := .store 0x8008 5 :: itemsOf clumsyCalls [0, monitorInvalidState, 0, monitorAccessDenied, monitorInvalidState, 0]) toy_fromBoot
    (.store hh.1 hh.2.1 hh.2.2.1 h1) ?_ ⟨?_, by rfl⟩
  · intro x hx
    simp only [itemsOf, clumsyCalls, List.zipWith, List.mem_cons, List.not_mem_nil, or_false, Item.call.injEq, reduceCtorEq, false_or] at hx
    rcases hx with rfl | rfl | rfl | rfl | rfl | rfl <;> first | exact trivial | exact Or.inl (by decide)
  · exact .cons_cons _ (.cons _ (.cons _ (.cons_cons _ (.cons _ (.cons _ (.cons_cons _ .slnil))))))

end Sanctum
