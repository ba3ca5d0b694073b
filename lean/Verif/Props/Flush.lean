import Verif.Lemmas.AtomicRun
import Verif.Lemmas.Flushed
import Verif.Props.Atomic
import Verif.Props.Isolation
/-
Property C73: TLB flushes before a region is freed, in every interleaving. The proof is about the atomic specification; C68 carries it over.
-/
namespace Sanctum
variable {g : Cfg}

deriving instance DecidableEq for Op
deriving instance DecidableEq for Label

/-- Region `r` was blocked at time `K` or later, and is still blocked or all cores have flushed since. -/
def BlockedSince (g : Cfg) (r K : Nat) (s : RegionTable) : Prop :=
  K ≤ s.clock ∧ K ≤ s.stamp r ∧ (s.owner r = blockedEnclaveId ∨ ∀ c, c < g.cores → K ≤ s.flushed c)

/-- Giving a region an owner. -/
theorem BlockedSince.setOwner {r K : Nat} {s : RegionTable} (h : BlockedSince g r K s) {i : Nat} {o : W}
    (ho : i = r → o = blockedEnclaveId ∨ ∀ c, c < g.cores → K ≤ s.flushed c) : BlockedSince g r K (s.setOwner i o) := by
  refine ⟨h.1, h.2.1, ?_⟩
  by_cases hi : r = i
  · rcases ho hi.symm with rfl | h1
    · left; show upd _ _ _ _ = _; rw [hi, upd_same]
    · exact Or.inr h1
  · rcases h.2.2 with h1 | h1
    · left; show upd _ _ _ _ = _; rw [upd_ne _ _ hi]; exact h1
    · exact Or.inr h1

theorem BlockedSince.effect {r K : Nat} {s s' : RegionTable} {k : Call} {v : W} (h : BlockedSince g r K s) (he : TakesEffect g k s v s') : BlockedSince g r K s' := by
  have key : ∀ {x : W × RegionTable}, (v, s') = x → BlockedSince g r K x.2 → BlockedSince g r K s' := fun {x} e q => by subst e; exact q
  -- an owner other than "blocked" before: the cores have flushed
  have other : ∀ {i : Nat} {o : W}, s.owner i ≠ blockedEnclaveId → i = r → o = blockedEnclaveId ∨ ∀ c, c < g.cores → K ≤ s.flushed c := fun {i o} hn hi => by
    rcases h.2.2 with h1 | h1
    · rw [hi] at hn; exact absurd h1 hn
    · exact Or.inr h1
  cases k with
  | dramSize => exact key he h
  | dramRegionMask => exact key he h
  | metadataRegionPages => exact key he h
  | metadataRegionStart => exact key he h
  | blockDramRegion r' =>
      refine key he ?_
      split
      · exact h
      split
      · exact h
      split
      · exact h
      have h2 : BlockedSince g r K (s.setOwner r'.toNat blockedEnclaveId) := h.setOwner fun _ => Or.inl rfl
      refine ⟨Nat.le_succ_of_le h2.1, ?_, h2.2.2⟩
      show K ≤ upd s.stamp r'.toNat s.clock r
      by_cases hi : r = r'.toNat
      · rw [hi, upd_same]; exact h.1
      · rw [upd_ne _ _ hi]; exact h.2.1
  | dramRegionCheckOwnership r => refine key he ?_; repeat' split
                                  all_goals exact h
  | dramRegionState r => refine key he ?_; repeat' split
                         all_goals exact h
  | dramRegionOwner r => refine key he ?_; split <;> exact h
  | setDmaRange b n => refine key he ?_; split <;> exact h
  | assignDramRegion r' e =>
      refine key he ?_
      split
      · exact h
      split
      · exact h
      rename_i hf
      have hf := Classical.not_not.1 hf
      split
      · exact h
      split
      · exact h.setOwner (other (by rw [hf]; decide))
      · exact h
  | freeDramRegion r' =>
      refine key he ?_
      split
      · exact h
      split
      · rename_i hf
        rcases hf with ⟨-, hf⟩ | hf
        · exact h.setOwner fun hi => Or.inr fun c hc => Nat.le_trans h.2.1 (by rw [← hi]; exact hf c hc)
        · exact h.setOwner (other (by rw [hf]; decide))
      · exact h
  | createMetadataRegion r' =>
      refine key he ?_
      split
      · exact h
      split
      · rename_i hf
        exact h.setOwner (other (by rw [hf]; decide))
      · exact h
  | flushCachedDramRegions => exact he.elim
  | _ => cases (show s' = s from he); exact h

theorem BlockedSince.step {r K : Nat} {a a' : AtomicState} {h : List Label} (hs : AtomicStep g a h a') (ho : a.table.Ordered) (hb : BlockedSince g r K a.table) :
    BlockedSince g r K a'.table := by
  cases hs with
  | start _ _ => exact hb
  | effect _ he => exact hb.effect he
  | busy _ _ _ _ => exact hb
  | sample _ => exact hb
  | @flush c hc =>
      refine ⟨hb.1, hb.2.1, hb.2.2.imp id fun hf c' hc' => ?_⟩
      show K ≤ upd a.table.flushed c (a.table.sampled c) c'
      by_cases hcc : c' = c
      · subst hcc; rw [upd_same]; exact Nat.le_trans (hf c' hc') (ho c').1
      · rw [upd_ne _ _ hcc]; exact hf c' hc'
  | done _ => exact hb

theorem BlockedSince.run {r K : Nat} {a a' : AtomicState} {h : List Label} (hr : AtomicRun g a h a') (ho : a.table.Ordered) (hb : BlockedSince g r K a.table) :
    BlockedSince g r K a'.table := by
  induction hr with
  | refl => exact hb
  | tail hr hs ih => exact ih.step hs (hr.ordered ho).1

theorem invalidValue_ne : monitorInvalidValue ≠ monitorOk := by decide
theorem accessDenied_ne : monitorAccessDenied ≠ monitorOk := by decide
theorem invalidState_ne : monitorInvalidState ≠ monitorOk := by decide

theorem tableBlock_ok {s s' : RegionTable} {r : W} (h : TakesEffect g (.blockDramRegion r) s monitorOk s') :
    s' = { s.setOwner r.toNat blockedEnclaveId with stamp := upd s.stamp r.toNat s.clock, clock := s.clock + 1 } := by
  have key : ∀ {x : W × RegionTable}, (monitorOk, s') = x →
      (x.1 = monitorOk → x.2 = { s.setOwner r.toNat blockedEnclaveId with stamp := upd s.stamp r.toNat s.clock, clock := s.clock + 1 }) →
      s' = { s.setOwner r.toNat blockedEnclaveId with stamp := upd s.stamp r.toNat s.clock, clock := s.clock + 1 } := fun {x} e q => by subst e; exact q rfl
  refine key h ?_
  split
  · exact fun hh => absurd hh invalidValue_ne
  split
  · exact fun hh => absurd hh accessDenied_ne
  split
  · exact fun hh => absurd hh invalidState_ne
  · exact fun _ => rfl

theorem tableFree_ok {s s' : RegionTable} {r : W} (h : TakesEffect g (.freeDramRegion r) s monitorOk s') :
    (s.owner r.toNat = blockedEnclaveId ∧ ∀ c, c < g.cores → s.stamp r.toNat ≤ s.flushed c) ∨ s.owner r.toNat = metadataEnclaveId := by
  have key : ∀ {x : W × RegionTable}, (monitorOk, s') = x →
      (x.1 = monitorOk → (s.owner r.toNat = blockedEnclaveId ∧ ∀ c, c < g.cores → s.stamp r.toNat ≤ s.flushed c) ∨ s.owner r.toNat = metadataEnclaveId) →
      (s.owner r.toNat = blockedEnclaveId ∧ ∀ c, c < g.cores → s.stamp r.toNat ≤ s.flushed c) ∨ s.owner r.toNat = metadataEnclaveId := fun {x} e q => by subst e; exact q rfl
  refine key h ?_
  split
  · exact fun hh => absurd hh invalidValue_ne
  split
  · rename_i hf; exact fun _ => hf
  · exact fun hh => absurd hh invalidState_ne

/-- C73 for the atomic specification. -/
theorem atomic_flush {a a' : AtomicState} (hord : a.table.Ordered) (hidle : ∀ c, a.phase c = .idle) {h0 H0 h1 H1 h2 H2 : List Label} {c0 c1 c2 : Nat} {r0 r : W}
    (hr : AtomicRun g a (h0 ++ (H0 ++ (h1 ++ (H1 ++ (h2 ++ H2))))) a') (d0 : During c0 (.blockDramRegion r0) monitorOk H0)
    (d1 : During c1 (.blockDramRegion r) monitorOk H1) (d2 : During c2 (.freeDramRegion r) monitorOk H2) {c : Nat} (hc : c < g.cores) :
    FlushesSince h0 (H0 ++ (h1 ++ (H1 ++ (h2 ++ H2)))) c := by
  rcases Classical.em (FlushesSince h0 (H0 ++ (h1 ++ (H1 ++ (h2 ++ H2)))) c) with hfl | hfl
  · exact hfl
  exfalso
  have hcur : current h0 c ≠ some .flushCachedDramRegions := fun hh => hfl (Or.inl hh)
  have hno : Label.start c .flushCachedDramRegions ∉ H0 ++ (h1 ++ (H1 ++ (h2 ++ H2))) := fun hh => hfl (Or.inr hh)
  have hbusy : ∀ k, ¬ BusyAnswer (.blockDramRegion k) monitorOk := fun k hh => absurd (show monitorOk = monitorConcurrentCall from hh) (by decide)
  have hbusy2 : ∀ k, ¬ BusyAnswer (.freeDramRegion k) monitorOk := fun k hh => absurd (show monitorOk = monitorConcurrentCall from hh) (by decide)
  obtain ⟨b0, q0, hr⟩ := hr.cut rfl
  have hnf : NotFlushing (b0.phase c) := by
    have := q0.current c (hidle c)
    refine ⟨fun hh => hcur ?_, fun hh => hcur ?_⟩
    · rw [← this, hh]; rfl
    · rw [← this, hh]; rfl
  obtain ⟨b1, q1, hr⟩ := hr.cut rfl
  obtain ⟨b2, q2, hr⟩ := hr.cut rfl
  obtain ⟨b3, q3, hr⟩ := hr.cut rfl
  obtain ⟨b4, q4, q5⟩ := hr.cut rfl
  -- no flush of core `c` takes effect
  obtain ⟨n1, f1⟩ := q1.noFlush hnf fun hh => hno (List.mem_append_left _ hh)
  obtain ⟨n2, f2⟩ := q2.noFlush n1 fun hh => hno (List.mem_append_right _ (List.mem_append_left _ hh))
  obtain ⟨n3, f3⟩ := q3.noFlush n2 fun hh => hno (List.mem_append_right _ (List.mem_append_right _ (List.mem_append_left _ hh)))
  obtain ⟨n4, f4⟩ := q4.noFlush n3 fun hh => hno (List.mem_append_right _ (List.mem_append_right _ (List.mem_append_right _ (List.mem_append_left _ hh))))
  have o0 := q0.ordered hord
  have o1 := q1.ordered o0.1
  have o2 := q2.ordered o1.1
  have o3 := q3.ordered o2.1
  have o4 := q4.ordered o3.1
  -- the first block
  obtain ⟨x1, x2, s1, s2, -, e1, e2, e3⟩ := d0.effect Call.noConfusion (hbusy _) q1
  have p1 := e1.ordered o0.1
  have hclk : s2.table.clock = s1.table.clock + 1 ∧ s2.table.Ordered := by
    have h2 := tableBlock_ok e2
    refine ⟨by rw [h2], fun c => ?_⟩
    have := p1.1 c
    rw [h2]
    exact ⟨this.1, Nat.le_succ_of_le this.2⟩
  have p2 := e3.ordered hclk.2
  have hlow : b0.table.flushed c < s1.table.clock + 1 := by have := o0.1 c; omega
  -- the second
  obtain ⟨x3, x4, s3, s4, -, e4, e5, e6⟩ := d1.effect Call.noConfusion (hbusy _) q3
  have p3 := e4.ordered o2.1
  have hbs : BlockedSince g r.toNat (s1.table.clock + 1) s4.table ∧ s4.table.Ordered := by
    have h2 := tableBlock_ok e5
    rw [h2]
    have hk : s1.table.clock + 1 ≤ s3.table.clock := by omega
    refine ⟨⟨Nat.le_succ_of_le hk, ?_, Or.inl ?_⟩, fun c => ?_⟩
    · show _ ≤ upd _ _ _ _
      rw [upd_same]; exact hk
    · show upd _ _ _ _ = _
      rw [upd_same]
    · have := p3.1 c
      exact ⟨this.1, Nat.le_succ_of_le this.2⟩
  have hb3 := BlockedSince.run e6 hbs.2 hbs.1
  have hb4 := BlockedSince.run q4 (e6.ordered hbs.2).1 hb3
  -- the free
  obtain ⟨x5, x6, s5, s6, hH, e7, e8, e9⟩ := d2.effect Call.noConfusion (hbusy2 _) q5
  have hb5 := BlockedSince.run e7 o4.1 hb4
  have hfin : ∀ c, c < g.cores → s1.table.clock + 1 ≤ s5.table.flushed c := by
    rcases tableFree_ok e8 with ⟨-, hf⟩ | hf
    · exact fun c hc => Nat.le_trans hb5.2.1 (hf c hc)
    · rcases hb5.2.2 with h1 | h1
      · rw [h1] at hf; exact absurd hf (by decide)
      · exact h1
  obtain ⟨-, f5⟩ := e7.noFlush n4 fun hh => hno (List.mem_append_right _ (List.mem_append_right _ (List.mem_append_right _ (List.mem_append_right _ (by rw [hH]; exact List.mem_append_left _ hh)))))
  have := hfin c hc
  omega

/-- Core 0 blocks region 1 and frees it. -/
def blockFreeMoves : List Move := [.start 0 (.blockDramRegion 1)] ++ List.replicate 22 (.go 0) ++ [.start 0 (.freeDramRegion 1)] ++ List.replicate 10 (.go 0)

set_option maxRecDepth 100000 in
theorem blockFree_plays : (play toyG blockFreeMoves toyS).map (fun x => observed x.1) =
    some [.start 0 (.blockDramRegion 1), .done 0 (.blockDramRegion 1) monitorOk, .start 0 (.freeDramRegion 1), .done 0 (.freeDramRegion 1) monitorOk] := by decide +kernel

/-- Core 0 blocks region 1; all cores flush; core 0 blocks region 2 while core 1 flushes again, and frees it. -/
def flushFreeMoves : List Move :=
  [.start 0 (.blockDramRegion 1)] ++ List.replicate 22 (.go 0) ++
  [.start 0 .flushCachedDramRegions] ++ List.replicate 5 (.go 0) ++ [.start 1 .flushCachedDramRegions] ++ List.replicate 5 (.go 1) ++
  [.start 2 .flushCachedDramRegions] ++ List.replicate 5 (.go 2) ++ [.start 3 .flushCachedDramRegions] ++ List.replicate 5 (.go 3) ++
  [.start 0 (.blockDramRegion 2), .start 1 .flushCachedDramRegions, .go 1, .go 1] ++ List.replicate 22 (.go 0) ++ List.replicate 3 (.go 1) ++
  [.start 0 (.freeDramRegion 2)] ++ List.replicate 10 (.go 0)

/-- What is seen of it. -/
abbrev flushFreeSeen : List Label :=
  [] ++ ([.start 0 (.blockDramRegion 1), .done 0 (.blockDramRegion 1) monitorOk] ++
  ([.start 0 .flushCachedDramRegions, .done 0 .flushCachedDramRegions monitorOk, .start 1 .flushCachedDramRegions, .done 1 .flushCachedDramRegions monitorOk,
    .start 2 .flushCachedDramRegions, .done 2 .flushCachedDramRegions monitorOk, .start 3 .flushCachedDramRegions, .done 3 .flushCachedDramRegions monitorOk] ++
  ([.start 0 (.blockDramRegion 2), .start 1 .flushCachedDramRegions, .done 0 (.blockDramRegion 2) monitorOk] ++
  ([.done 1 .flushCachedDramRegions monitorOk] ++ [.start 0 (.freeDramRegion 2), .done 0 (.freeDramRegion 2) monitorOk]))))

set_option maxRecDepth 100000 in
theorem flushFree_plays : (play toyG flushFreeMoves toyS).map (fun x => (observed x.1, decide (x.1.length < 2 ^ 64))) = some (flushFreeSeen, true) := by decide +kernel

/-- C73, in full: if a call to block `r` returned with success and then one to free it was made and succeeded, every core was flushing, or started to, since the call to
block was made. -/
def C73_statement (g : Cfg) (s : Conf) : Prop :=
  ∀ t s' h1 H1 h2 H2 c1 c2 r, Steps g s t s' → observed t = h1 ++ (H1 ++ (h2 ++ H2)) → During c1 (.blockDramRegion r) monitorOk H1 →
    During c2 (.freeDramRegion r) monitorOk H2 → ∀ c, c < g.cores → FlushesSince h1 (H1 ++ (h2 ++ H2)) c

/-- C73, the part that holds, in all interleavings of the covered calls (of fewer than 2^64 steps, from boot with zeroed core records): every core was flushing, or started to,
since the call that made the *previous* successful block, of any region. -/
theorem C73_flush_partial {s s' : Conf} {t : List Label} (h : Fresh g s) (hfl : ∀ c, c < g.cores → s.m.flushedAt c = 0) (hs : Steps g s t s')
    (hk : OnlyCalls (CoveredC g) t) (hn : OnlyCalls NoLeak t) (hlen : t.length < 2 ^ 64) {h0 H0 h1 H1 h2 H2 : List Label} {c0 c1 c2 : Nat} {r0 r : W}
    (ht : observed t = h0 ++ (H0 ++ (h1 ++ (H1 ++ (h2 ++ H2))))) (d0 : During c0 (.blockDramRegion r0) monitorOk H0)
    (d1 : During c1 (.blockDramRegion r) monitorOk H1) (d2 : During c2 (.freeDramRegion r) monitorOk H2) {c : Nat} (hc : c < g.cores) :
    FlushesSince h0 (H0 ++ (h1 ++ (H1 ++ (h2 ++ H2)))) c := by
  obtain ⟨a, h1, -⟩ := C68_linearizable h hfl hs hk hn hlen
  rw [ht] at h1
  exact atomic_flush (fun _ => ⟨Nat.le_refl _, Nat.le_refl _⟩) (fun _ => rfl) h1 d0 d1 d2 hc

/-- C73 down to the actions: under the same hypotheses, every core has flushed its TLB since the call that made the previous successful block; or it had before, in a call that
it has not left when that call was made (so that no software ran on the core in between). -/
theorem C73_flushed_partial {s s' : Conf} {t0 t1 : List Label} (h : Fresh g s) (hfl : ∀ c, c < g.cores → s.m.flushedAt c = 0) (hs : Steps g s (t0 ++ t1) s')
    (hk : OnlyCalls (CoveredC g) (t0 ++ t1)) (hn : OnlyCalls NoLeak (t0 ++ t1)) (hlen : (t0 ++ t1).length < 2 ^ 64) {H0 h1 H1 h2 H2 : List Label} {c0 c1 c2 : Nat} {r0 r : W}
    (ht : observed t1 = H0 ++ (h1 ++ (H1 ++ (h2 ++ H2)))) (d0 : During c0 (.blockDramRegion r0) monitorOk H0)
    (d1 : During c1 (.blockDramRegion r) monitorOk H1) (d2 : During c2 (.freeDramRegion r) monitorOk H2) {c : Nat} (hc : c < g.cores) :
    FlushedSince t0 t1 c := by
  have obs : ∀ a b : List Label, observed (a ++ b) = observed a ++ observed b := fun a b => List.filter_append ..
  rcases Classical.em (FlushPending (t0 ++ t1) c) with ⟨A, B, e1, e2⟩ | hp
  · rw [e1] at hs hk hn hlen
    obtain ⟨s1, s2, q1, q2, q3⟩ := hs.removeStart e2
    have sub : ∀ l ∈ A ++ B, l ∈ A ++ Label.start c .flushCachedDramRegions :: B := fun l hl => by
      rcases List.mem_append.1 hl with hl | hl
      · exact List.mem_append_left _ hl
      · exact List.mem_append_right _ (List.mem_cons_of_mem _ hl)
    have hk' : OnlyCalls (CoveredC g) (A ++ B) := fun c k hh => hk c k (sub _ hh)
    have hn' : OnlyCalls NoLeak (A ++ B) := fun c k hh => hn c k (sub _ hh)
    have hlen' : (A ++ B).length < 2 ^ 64 := by
      rw [List.length_append] at hlen ⊢
      rw [List.length_cons] at hlen; omega
    have hidle : current (A ++ B) c = none := by
      rw [current_append, foldl_current_other _ e2]
      have := current_steps h.2 q1 c
      rw [q2] at this
      rcases this with this | ⟨_, _, this, _⟩
      · exact this.2
      · cases this
    have hp : ¬ FlushPending (A ++ B) c := fun hh => by rw [hh.current] at hidle; cases hidle
    rcases append_split e1 with ⟨A', f1, f2⟩ | ⟨A', f1, f2⟩
    · -- the start is in the first part
      rw [f2] at q3 hk' hn' hlen' hp
      have eq : A ++ (A' ++ t1) = (A ++ A') ++ t1 := (List.append_assoc ..).symm
      rw [eq] at q3 hk' hn' hlen' hp
      have hfl' := C73_flush_partial h hfl q3 hk' hn' hlen' (h0 := observed (A ++ A')) (by rw [obs, ht]) d0 d1 d2 hc
      rw [← ht] at hfl'
      rcases flushed_of_flushes q3 hp hfl' with h3 | ⟨u, v, w, h3, h4⟩
      · exact Or.inl h3
      · have hA' : ∀ l ∈ A', l.core ≠ some c := fun l hl => e2 l (by rw [f2]; exact List.mem_append_left _ hl)
        rcases append_split h3 with ⟨w', h5, h6⟩ | ⟨w', h5, h6⟩
        · refine Or.inr ⟨u, v, w' ++ Label.start c .flushCachedDramRegions :: A', by rw [f1, h5, List.append_assoc]; rfl, fun l hl k x hh => ?_⟩
          rcases List.mem_append.1 hl with hl | hl
          · exact h4 l (by rw [h6]; exact List.mem_append_left _ hl) k x hh
          · rcases List.mem_cons.1 hl with hl | hl
            · rw [hl] at hh; cases hh
            · exact hA' l hl (by rw [hh]; rfl)
        · exact absurd rfl (hA' (Label.act c .flushTlbs v) (by rw [h6]; exact List.mem_append_right _ List.mem_cons_self))
    · -- the start is in the second part
      rw [f1, List.append_assoc] at q3 hk' hn' hlen' hp
      have key : FlushesSince (observed t0) (observed (A' ++ B)) c := by
        have e3 : H0 ++ (h1 ++ (H1 ++ (h2 ++ H2))) = observed A' ++ Label.start c .flushCachedDramRegions :: observed B := by
          rw [← ht, f2, obs]; rfl
        have fin : ∀ {H0 h1 H1 h2 H2 : List Label}, observed (A' ++ B) = H0 ++ (h1 ++ (H1 ++ (h2 ++ H2))) → During c0 (.blockDramRegion r0) monitorOk H0 →
            During c1 (.blockDramRegion r) monitorOk H1 → During c2 (.freeDramRegion r) monitorOk H2 → FlushesSince (observed t0) (observed (A' ++ B)) c := by
          intro H0 h1 H1 h2 H2 e d0 d1 d2
          have := C73_flush_partial h hfl q3 hk' hn' hlen' (h0 := observed t0) (by rw [obs, e]) d0 d1 d2 hc
          rw [← e] at this
          exact this
        rw [obs] at fin
        rw [obs]
        rcases append_split e3 with ⟨X, x1, x2⟩ | ⟨X, x1, x2⟩
        · exact fin (H0 := observed A' ++ X) (h1 := h1) (h2 := h2) (by rw [x2, List.append_assoc]) (d0.remove x1 Call.noConfusion) d1 d2
        · rcases append_split x2 with ⟨Y, y1, y2⟩ | ⟨Y, y1, y2⟩
          · exact fin (h1 := X ++ Y) (h2 := h2) (by rw [x1, y2]; simp only [List.append_assoc]) d0 d1 d2
          · rcases append_split y2 with ⟨Z, z1, z2⟩ | ⟨Z, z1, z2⟩
            · exact fin (h1 := h1) (H1 := Y ++ Z) (h2 := h2) (by rw [x1, y1, z2]; simp only [List.append_assoc]) d0 (d1.remove z1 Call.noConfusion) d2
            · rcases append_split z2 with ⟨U, u1, u2⟩ | ⟨U, u1, u2⟩
              · exact fin (h1 := h1) (h2 := Z ++ U) (by rw [x1, y1, z1, u2]; simp only [List.append_assoc]) d0 d1 d2
              · exact fin (h1 := h1) (h2 := h2) (H2 := U ++ observed B) (by rw [x1, y1, z1, u1]; simp only [List.append_assoc]) d0 d1 (d2.remove u2 Call.noConfusion)
      have hfl' := flushed_of_flushes q3 hp key
      rcases hfl' with ⟨v, h3⟩ | h3
      · refine Or.inl ⟨v, ?_⟩
        rw [f2]
        rcases List.mem_append.1 h3 with h3 | h3
        · exact List.mem_append_left _ h3
        · exact List.mem_append_right _ (List.mem_cons_of_mem _ h3)
      · exact Or.inr h3
  · refine flushed_of_flushes hs hp ?_
    rw [ht]
    exact C73_flush_partial h hfl hs hk hn hlen (by rw [obs, ht]) d0 d1 d2 hc

theorem flushFree_calls {s' : Conf} {t : List Label} (hp : play toyG flushFreeMoves toyS = some (t, s')) : OnlyCalls (fun k => CoveredC toyG k ∧ NoLeak k) t := by
  refine play_onlyCalls flushFreeMoves (fun c k hk => ?_) hp
  simp only [flushFreeMoves, List.replicate, List.cons_append, List.nil_append, List.mem_cons, Move.start.injEq, reduceCtorEq, false_or, or_false,
    List.not_mem_nil] at hk
  rcases hk with ⟨_, rfl⟩ | ⟨_, rfl⟩ | ⟨_, rfl⟩ | ⟨_, rfl⟩ | ⟨_, rfl⟩ | ⟨_, rfl⟩ | ⟨_, rfl⟩ | ⟨_, rfl⟩
  all_goals exact ⟨⟨trivial, fun _ _ _ _ hh => by cases hh⟩, trivial⟩

/-- The hypotheses of C73 are met. -/
example : ∃ t s' h0 H0 h1 H1 h2 H2, Fresh toyG toyS ∧ (∀ c, c < toyG.cores → toyS.m.flushedAt c = 0) ∧ Steps toyG toyS t s' ∧ OnlyCalls (CoveredC toyG) t ∧
    OnlyCalls NoLeak t ∧ t.length < 2 ^ 64 ∧ observed t = h0 ++ (H0 ++ (h1 ++ (H1 ++ (h2 ++ H2)))) ∧ During 0 (.blockDramRegion 1) monitorOk H0 ∧
    During 0 (.blockDramRegion 2) monitorOk H1 ∧ During 0 (.freeDramRegion 2) monitorOk H2 := by
  have h := flushFree_plays
  cases hp : play toyG flushFreeMoves toyS with
  | none => rw [hp] at h; cases h
  | some x =>
      rw [hp] at h
      simp only [Option.map_some, Option.some.injEq, Prod.mk.injEq, decide_eq_true_eq] at h
      have hc := flushFree_calls hp
      refine ⟨x.1, x.2, [], _, _, _, _, _, toyS_fresh, by set_option maxRecDepth 100000 in decide +kernel, play_steps _ hp, hc.mono (fun _ h => h.1), hc.mono (fun _ h => h.2), h.2, h.1,
        ⟨[], rfl, fun l hl => absurd hl List.not_mem_nil⟩, ⟨[.start 1 .flushCachedDramRegions], rfl, fun l hl => ?_⟩, ⟨[], rfl, fun l hl => absurd hl List.not_mem_nil⟩⟩
      rw [List.mem_singleton.1 hl]; exact fun hh => by cases hh

/-- The full statement is false of the code (as C25): right after boot, a blocked region can be freed without any flush. -/
theorem C73_statement_false : ∃ g s, Fresh g s ∧ (∀ c, c < g.cores → s.m.flushedAt c = 0) ∧ ¬ C73_statement g s := by
  refine ⟨toyG, toyS, toyS_fresh, by set_option maxRecDepth 100000 in decide +kernel, fun hst => ?_⟩
  have h := blockFree_plays
  cases hp : play toyG blockFreeMoves toyS with
  | none => rw [hp] at h; cases h
  | some x =>
      rw [hp] at h
      have hobs := Option.some.inj h
      have := hst x.1 x.2 [] [.start 0 (.blockDramRegion 1), .done 0 (.blockDramRegion 1) monitorOk] [] [.start 0 (.freeDramRegion 1), .done 0 (.freeDramRegion 1) monitorOk] 0 0 1
        (play_steps _ hp) hobs ⟨[], rfl, fun l hl => absurd hl List.not_mem_nil⟩ ⟨[], rfl, fun l hl => absurd hl List.not_mem_nil⟩ 0
        (by set_option maxRecDepth 100000 in decide +kernel)
      rcases this with h1 | h1
      · cases h1
      · simp at h1

end Sanctum
