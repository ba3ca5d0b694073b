import Verif.Lemmas.Count
import Verif.Props.Flush
/-
Property C74: in every interleaving, the calls that succeeded account for the owners of the regions. The proof is about the atomic specification; C68 carries it over.
-/
namespace Sanctum
variable {g : Cfg}

/-- 1 if the owner is the OS. -/
def isOs (o : W) : Nat := (o == nullEnclaveId).toNat
/-- 1 if the region is free. -/
def isFree (o : W) : Nat := (o == freeEnclaveId).toNat

/-- 1 if a call that satisfies `Q` succeeded. -/
def wins (Q : Call → Bool) (k : Call) (v : W) : Nat := (Q k && v == monitorOk).toNat

/-- What one effect does to the account of region `r`. -/
structure Accounted (r : W) (k : Call) (v : W) (s s' : RegionTable) : Prop where
  os : wins (Call.blocks r) k v + isOs (s'.owner r.toNat) = wins (Call.assigns r) k v + isOs (s.owner r.toNat)
  free : wins (Call.assigns r) k v + wins (Call.makesMetadata r) k v + isFree (s'.owner r.toNat) = wins (Call.frees r) k v + isFree (s.owner r.toNat)

/-- A call that did not succeed and changes no owner. -/
theorem Accounted.fail {r : W} {k : Call} {v : W} {s s' : RegionTable} (hv : v ≠ monitorOk) (hs : s'.owner = s.owner) : Accounted r k v s s' := by
  have hb : ∀ Q, wins Q k v = 0 := fun Q => by
    unfold wins
    rw [show (v == monitorOk) = false from beq_eq_false_iff_ne.2 hv, Bool.and_false]; rfl
  exact ⟨by rw [hb, hb, hs], by rw [hb, hb, hb, hs]⟩

/-- A call of another kind that changes no owner. -/
theorem Accounted.other {r : W} {k : Call} {v : W} {s s' : RegionTable} (h1 : k.blocks r = false) (h2 : k.assigns r = false) (h3 : k.makesMetadata r = false)
    (h4 : k.frees r = false) (hs : s'.owner r.toNat = s.owner r.toNat) : Accounted r k v s s' := by
  have w1 : wins (Call.blocks r) k v = 0 := by unfold wins; rw [h1]; rfl
  have w2 : wins (Call.assigns r) k v = 0 := by unfold wins; rw [h2]; rfl
  have w3 : wins (Call.makesMetadata r) k v = 0 := by unfold wins; rw [h3]; rfl
  have w4 : wins (Call.frees r) k v = 0 := by unfold wins; rw [h4]; rfl
  exact ⟨by rw [w1, w2, hs], by rw [w2, w3, w4, hs]⟩

theorem ne_regions {r r' : W} (h : r' ≠ r) : r.toNat ≠ r'.toNat := fun hh => h ((W.eq_iff r' r).2 hh.symm)

theorem account {k : Call} {v : W} {s s' : RegionTable} (r : W) (he : TakesEffect g k s v s') : Accounted r k v s s' := by
  have key : ∀ {x : W × RegionTable}, (v, s') = x → Accounted r k x.1 s x.2 → Accounted r k v s s' := fun {x} e q => by subst e; exact q
  have hinv := invalidValue_ne
  have hst := invalidState_ne
  have hconc : monitorConcurrentCall ≠ monitorOk := by decide
  have own : ∀ {r' o : W} {t : RegionTable}, t.owner = upd s.owner r'.toNat o → r' ≠ r → t.owner r.toNat = s.owner r.toNat := fun {r' o t} ht hne => by
    rw [ht, upd_ne _ _ (ne_regions hne)]
  cases k with
  | dramSize => exact key he (.other rfl rfl rfl rfl rfl)
  | dramRegionMask => exact key he (.other rfl rfl rfl rfl rfl)
  | metadataRegionPages => exact key he (.other rfl rfl rfl rfl rfl)
  | metadataRegionStart => exact key he (.other rfl rfl rfl rfl rfl)
  | blockDramRegion r' =>
      refine key he ?_
      split
      · exact .fail hinv rfl
      split
      · exact .fail accessDenied_ne rfl
      rename_i ho
      have ho := Classical.not_not.1 ho
      split
      · exact .fail hst rfl
      by_cases hr : r' = r
      · subst hr
        refine ⟨?_, ?_⟩
        · show wins _ _ _ + isOs (upd s.owner r'.toNat blockedEnclaveId r'.toNat) = _
          rw [upd_same, ho]
          simp only [wins, Call.blocks, Call.assigns, beq_self_eq_true]; decide
        · show _ + isFree (upd s.owner r'.toNat blockedEnclaveId r'.toNat) = _
          rw [upd_same, ho]
          simp only [wins, Call.frees, Call.assigns, Call.makesMetadata]; decide
      · exact .other (beq_eq_false_iff_ne.2 hr) rfl rfl rfl (own rfl hr)
  | dramRegionCheckOwnership r' => refine key he ?_; repeat' split
                                   all_goals exact .other rfl rfl rfl rfl rfl
  | dramRegionState r' => refine key he ?_; repeat' split
                          all_goals exact .other rfl rfl rfl rfl rfl
  | dramRegionOwner r' => refine key he ?_; split <;> exact .other rfl rfl rfl rfl rfl
  | setDmaRange b n => refine key he ?_; split <;> exact .other rfl rfl rfl rfl rfl
  | assignDramRegion r' e =>
      refine key he ?_
      split
      · exact .fail hinv rfl
      split
      · exact .fail hst rfl
      rename_i ho
      have ho := Classical.not_not.1 ho
      split
      · exact .fail hconc rfl
      split
      · by_cases hr : r' = r
        · subst hr
          refine ⟨?_, ?_⟩
          · show wins _ _ _ + isOs (upd s.owner r'.toNat nullEnclaveId r'.toNat) = _
            rw [upd_same, ho]
            simp only [wins, Call.blocks, Call.assigns, beq_self_eq_true]; decide
          · show _ + isFree (upd s.owner r'.toNat nullEnclaveId r'.toNat) = _
            rw [upd_same, ho]
            simp only [wins, Call.frees, Call.assigns, Call.makesMetadata, beq_self_eq_true]; decide
        · exact .other rfl (beq_eq_false_iff_ne.2 hr) rfl rfl (own rfl hr)
      · exact .fail hinv rfl
  | freeDramRegion r' =>
      refine key he ?_
      split
      · exact .fail hinv rfl
      split
      · rename_i hf
        by_cases hr : r' = r
        · subst hr
          have ho : s.owner r'.toNat = blockedEnclaveId ∨ s.owner r'.toNat = metadataEnclaveId := hf.imp And.left id
          refine ⟨?_, ?_⟩
          · show wins _ _ _ + isOs (upd s.owner r'.toNat freeEnclaveId r'.toNat) = _
            rw [upd_same]
            rcases ho with ho | ho <;> rw [ho] <;> simp only [wins, Call.blocks, Call.assigns] <;> decide
          · show _ + isFree (upd s.owner r'.toNat freeEnclaveId r'.toNat) = _
            rw [upd_same]
            rcases ho with ho | ho <;> rw [ho] <;> simp only [wins, Call.frees, Call.assigns, Call.makesMetadata, beq_self_eq_true] <;> decide
        · exact .other rfl rfl rfl (beq_eq_false_iff_ne.2 hr) (own rfl hr)
      · exact .fail hst rfl
  | createMetadataRegion r' =>
      refine key he ?_
      split
      · exact .fail hinv rfl
      split
      · rename_i ho
        by_cases hr : r' = r
        · subst hr
          refine ⟨?_, ?_⟩
          · show wins _ _ _ + isOs (upd s.owner r'.toNat metadataEnclaveId r'.toNat) = _
            rw [upd_same, ho]
            simp only [wins, Call.blocks, Call.assigns]; decide
          · show _ + isFree (upd s.owner r'.toNat metadataEnclaveId r'.toNat) = _
            rw [upd_same, ho]
            simp only [wins, Call.frees, Call.assigns, Call.makesMetadata, beq_self_eq_true]; decide
        · exact .other rfl rfl (beq_eq_false_iff_ne.2 hr) rfl (own rfl hr)
      · exact .fail hst rfl
  | flushCachedDramRegions => exact he.elim
  | _ => cases (show s' = s from he); exact .other rfl rfl rfl rfl rfl

theorem countable_blocks (r : W) : Countable (Call.blocks r) := ⟨rfl, fun k v hq hb => by
  cases k <;> first | cases hq | (rw [show v = monitorConcurrentCall from hb]; decide)⟩
theorem countable_frees (r : W) : Countable (Call.frees r) := ⟨rfl, fun k v hq hb => by
  cases k <;> first | cases hq | (rw [show v = monitorConcurrentCall from hb]; decide)⟩
theorem countable_assigns (r : W) : Countable (Call.assigns r) := ⟨rfl, fun k v hq hb => by
  cases k <;> first | cases hq | (rw [show v = monitorConcurrentCall from hb]; decide)⟩
theorem countable_makes (r : W) : Countable (Call.makesMetadata r) := ⟨rfl, fun k v hq hb => by
  cases k <;> first | cases hq | (rw [show v = monitorConcurrentCall from hb]; decide)⟩

/-- The account of region `r` in a run of the atomic specification. -/
theorem atomic_account {a' : AtomicState} {h : List Label} (r : W) (hr : AtomicRun g (AtomicState.initial g) h a') :
    (∀ c, a'.phase c ≠ .idle → c < g.cores) ∧
    effects g (Call.blocks r) h a' + isOs (a'.table.owner r.toNat) = effects g (Call.assigns r) h a' + 1 ∧
    effects g (Call.assigns r) h a' + effects g (Call.makesMetadata r) h a' + isFree (a'.table.owner r.toNat) = effects g (Call.frees r) h a' := by
  induction hr with
  | refl =>
      have zero : ∀ Q, effects g Q [] (AtomicState.initial g) = 0 := fun Q => by
        unfold effects won
        have : ∀ l : List Nat, l.countP (fun c => ((AtomicState.initial g).phase c).won Q) = 0 := fun l => List.countP_eq_zero.2 fun _ _ hh => by cases hh
        rw [this]; rfl
      refine ⟨fun c hc => absurd rfl hc, ?_, ?_⟩
      · rw [zero, zero]; show 0 + isOs nullEnclaveId = 0 + 1; decide
      · rw [zero, zero, zero]; show 0 + 0 + isFree nullEnclaveId = 0; decide
  | @tail s1 s2 h h' hrun hs ih =>
      obtain ⟨i1, i2, i3⟩ := ih
      refine ⟨hs.inRange i1, ?_⟩
      rcases hs.effects (h := h) i1 with ⟨q1, q2⟩ | ⟨k, v, q1, q2⟩
      · rw [q1, q2 _ (countable_blocks r), q2 _ (countable_assigns r), q2 _ (countable_makes r), q2 _ (countable_frees r)]
        exact ⟨i2, i3⟩
      · obtain ⟨z1, z2⟩ := account r q1
        rw [q2 _ (countable_blocks r), q2 _ (countable_assigns r), q2 _ (countable_makes r), q2 _ (countable_frees r)]
        unfold wins at z1 z2
        omega

/-- C74. In every interleaving of covered calls (of fewer than 2^64 steps, from boot with zeroed core records), and for every region: counting the calls that returned with success
and, of those in progress, the ones that have taken effect, the OS owns the region unless it was blocked once more than it was assigned; and the region is free exactly if it was freed
once more than it was assigned or made a metadata region. The owner is the one in the machine's record whenever the region's lock is free. -/
theorem C74_account {s s' : Conf} {t : List Label} (h : Fresh g s) (hfl : ∀ c, c < g.cores → s.m.flushedAt c = 0) (hs : Steps g s t s')
    (hk : OnlyCalls (CoveredC g) t) (hn : OnlyCalls NoLeak t) (hlen : t.length < 2 ^ 64) (r : W) (hr : r.toNat < g.regions) :
    ∃ nb na nm nf owner, MayCount g (Call.blocks r) t nb ∧ MayCount g (Call.assigns r) t na ∧ MayCount g (Call.makesMetadata r) t nm ∧ MayCount g (Call.frees r) t nf ∧
      (s'.m.locked g r.toNat = false → s'.m.owner g r.toNat = owner) ∧
      nb + (if owner = nullEnclaveId then 1 else 0) = na + 1 ∧ na + nm + (if owner = freeEnclaveId then 1 else 0) = nf := by
  obtain ⟨a, h1, h2⟩ := C68_linearizable h hfl hs hk hn hlen
  obtain ⟨-, q1, q2⟩ := atomic_account r h1
  have hc : ∀ c, (a.phase c).call = current (observed t) c := fun c => h1.current c rfl
  have b2n : ∀ x y : W, (x == y).toNat = if x = y then 1 else 0 := fun x y => by
    by_cases hxy : x = y
    · rw [if_pos hxy, beq_iff_eq.2 hxy]; rfl
    · rw [if_neg hxy, beq_eq_false_iff_ne.2 hxy]; rfl
  unfold isOs at q1
  unfold isFree at q2
  rw [b2n] at q1 q2
  exact ⟨_, _, _, _, a.table.owner r.toNat, mayCount_observed (effects_mayCount hc), mayCount_observed (effects_mayCount hc), mayCount_observed (effects_mayCount hc),
    mayCount_observed (effects_mayCount hc), h2.owner r.toNat hr, q1, q2⟩

/-- C74. A free region is handed out at most once: however many calls on however many cores ask for it at the same time, the calls that got it are at most as many as those
that freed it. -/
theorem C74_handed_out_once {s s' : Conf} {t : List Label} (h : Fresh g s) (hfl : ∀ c, c < g.cores → s.m.flushedAt c = 0) (hs : Steps g s t s')
    (hk : OnlyCalls (CoveredC g) t) (hn : OnlyCalls NoLeak t) (hlen : t.length < 2 ^ 64) (r : W) (hr : r.toNat < g.regions) :
    succeeded (Call.assigns r) t + succeeded (Call.makesMetadata r) t ≤ succeeded (Call.frees r) t + inProgress g (Call.frees r) t := by
  obtain ⟨nb, na, nm, nf, o, h1, h2, h3, h4, -, -, h5⟩ := C74_account h hfl hs hk hn hlen r hr
  have := h2.1; have := h3.1; have := h4.2
  omega

/-- C74. A region is blocked at most once between two assignments. -/
theorem C74_blocked_once {s s' : Conf} {t : List Label} (h : Fresh g s) (hfl : ∀ c, c < g.cores → s.m.flushedAt c = 0) (hs : Steps g s t s')
    (hk : OnlyCalls (CoveredC g) t) (hn : OnlyCalls NoLeak t) (hlen : t.length < 2 ^ 64) (r : W) (hr : r.toNat < g.regions) :
    succeeded (Call.blocks r) t ≤ succeeded (Call.assigns r) t + inProgress g (Call.assigns r) t + 1 := by
  obtain ⟨nb, na, nm, nf, o, h1, h2, h3, h4, -, h5, -⟩ := C74_account h hfl hs hk hn hlen r hr
  have := h2.2; have := h1.1
  omega

/-- In the interleaving of C73, region 2 was blocked once and freed once. -/
example : ∃ t s', Fresh toyG toyS ∧ (∀ c, c < toyG.cores → toyS.m.flushedAt c = 0) ∧ Steps toyG toyS t s' ∧ OnlyCalls (CoveredC toyG) t ∧
    OnlyCalls NoLeak t ∧ t.length < 2 ^ 64 ∧ succeeded (Call.blocks 2) t = 1 ∧ succeeded (Call.frees 2) t = 1 ∧ s'.m.owner toyG 2 = freeEnclaveId := by
  have h : (play toyG flushFreeMoves toyS).map (fun x => (succeeded (Call.blocks 2) x.1, succeeded (Call.frees 2) x.1, x.2.m.owner toyG 2, decide (x.1.length < 2 ^ 64))) =
      some (1, 1, freeEnclaveId, true) := by set_option maxRecDepth 100000 in decide +kernel
  cases hp : play toyG flushFreeMoves toyS with
  | none => rw [hp] at h; cases h
  | some x =>
      rw [hp] at h
      simp only [Option.map_some, Option.some.injEq, Prod.mk.injEq, decide_eq_true_eq] at h
      exact ⟨x.1, x.2, toyS_fresh, by set_option maxRecDepth 100000 in decide +kernel, play_steps _ hp, (flushFree_calls hp).mono (fun _ h => h.1),
        (flushFree_calls hp).mono (fun _ h => h.2), h.2.2.2, h.1, h.2.1, h.2.2.1⟩

end Sanctum
