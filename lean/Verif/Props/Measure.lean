import Verif.Props.Hash
import Verif.Props.Ids
/-
C45/C46 at the level of the monitor's calls; C51.
-/
namespace Sanctum
open Machine
variable {g : Cfg}

theorem run_bind_some {α β : Type} {c : Nat} {p : Prog α} {f : α → Prog β} {m m' : Machine} {b : β} (h : run g c (p >>= f) m = some (b, m')) :
    ∃ a m1, run g c p m = some (a, m1) ∧ run g c (f a) m1 = some (b, m') := by
  rw [run_bind] at h
  cases hp : run g c p m with
  | none => rw [hp] at h; cases h
  | some x => rw [hp] at h; exact ⟨x.1, x.2, rfl, h⟩

theorem create_measured {c : Nat} {e b k n : W} {d : Bool} {m m' : Machine} {r : Unit} (h : run g c (initEnclaveInfo e b k n d) m = some (r, m')) :
    Measuring g e m' [.create b k n d] := by
  unfold initEnclaveInfo at h
  obtain ⟨_, _, -, h⟩ := run_bind_some h
  obtain ⟨_, _, -, h⟩ := run_bind_some h
  obtain ⟨_, _, -, h⟩ := run_bind_some h
  obtain ⟨_, _, -, h⟩ := run_bind_some h
  obtain ⟨_, _, -, h⟩ := run_bind_some h
  obtain ⟨_, _, -, h⟩ := run_bind_some h
  obtain ⟨_, _, -, h⟩ := run_bind_some h
  obtain ⟨_, _, -, h⟩ := run_bind_some h
  obtain ⟨_, _, -, h⟩ := run_bind_some h
  obtain ⟨_, _, -, h⟩ := run_bind_some h
  exact Measuring.create h

/-- A successful `create_enclave` starts the measurement of the new enclave with exactly its arguments. -/
theorem C45_create_enclave (h : g.WF) (hs : g.SingleStripe) (hsh : g.ShiftOk) {c : Nat} {e base mask n : W} {debug : Bool} {m m' : Machine}
    (hl : LockWords g m) (h0 : m.owner g 0 = nullEnclaveId) (hr : call g c (.createEnclave e base mask n debug) m = some (monitorOk, m')) :
    RecordPlace g e ∧ Measuring g e m' [.create base mask n debug] := by
  have hm : g.MetaOk := ⟨h, hs, hsh⟩
  have hr' : run g c (createEnclave g e base mask n debug) m = some (monitorOk, m') := hr
  obtain ⟨q1, q2⟩ := run_createEnclave hm c e base mask n debug hl h0
  rcases Classical.em (CreateOk g m e base mask n) with hok | hok
  rotate_left
  · obtain ⟨v, r1, r2⟩ := q2 hok
    rw [r1] at hr'
    injection hr' with hr'; injection hr' with hr'
    exact absurd hr' r2
  obtain ⟨-, hmp, -, -⟩ := hok
  obtain ⟨hm1, hm2, hm3, hm4⟩ := id hmp
  obtain ⟨hab0, hab⟩ := meta_above hm h0 hm4
  have hpg := page_in_region hm hm2 hm1
  have hrr := dramRegionFor_lt h e
  have hrl := regionOf_lt h e.toNat
  have hlk := lockA_lt h hrl
  obtain ⟨b1, b2, b3, b4, b5, b6⟩ := entry_bounds hm hm2
  rw [Nat.succ_mul] at b6
  have hplace : RecordPlace g e := ⟨by omega, by omega⟩
  refine ⟨hplace, ?_⟩
  unfold createEnclave at hr'
  by_cases hv : isValidRange base mask = true
  rotate_left
  · rw [Bool.not_eq_true] at hv
    rw [hv, if_pos (by decide), run_pure] at hr'
    injection hr' with hr'; injection hr' with hr' _
    exact absurd hr' (by decide)
  rw [hv, if_neg (by decide)] at hr'
  by_cases hp : mask + 1 < pageSize
  · rw [if_pos hp, run_pure] at hr'
    injection hr' with hr'; injection hr' with hr' _
    exact absurd hr' (by decide)
  rw [if_neg hp, run_bind, run_lockMeta_ok h c hmp, Option.bind_some] at hr'
  dsimp only at hr'
  have hown : (m.st (lockA g (regionOf g e.toNat)) 1).owner g (regionOf g e.toNat) = metadataEnclaveId := by
    rw [← hm4]; simp [Machine.owner, mem_st]
  rw [if_neg (by decide), run_bind, run_readOwner h hrr, Option.bind_some] at hr'
  dsimp only at hr'
  rw [dramRegionFor_toNat h, hown, if_neg (by decide)] at hr'
  obtain ⟨res, m1, -, hr'⟩ := run_bind_some hr'
  by_cases hres : (res != monitorOk) = true
  · rw [if_pos hres] at hr'
    obtain ⟨_, _, -, hr'⟩ := run_bind_some hr'
    rw [run_pure] at hr'
    injection hr' with hr'; injection hr' with hr' _
    rw [hr'] at hres; exact absurd hres (by decide)
  rw [if_neg hres] at hr'
  obtain ⟨_, m2, h2, hr'⟩ := run_bind_some hr'
  rw [run_bind, run_clearLock h hrr, Option.bind_some, dramRegionFor_toNat h, run_pure] at hr'
  injection hr' with hr'; injection hr' with _ hr'
  rw [← hr']
  refine Measuring.other (create_measured h2) fun i hi => byteAt_congr ?_
  rw [mem_st, if_neg (by omega)]

theorem digest_congr {m m' : Machine} {s : Nat} (h : ∀ i, i < 32 → m'.byteAt (s + i) = m.byteAt (s + i)) : m'.digest s = m.digest s := by
  have hw : ∀ o, o + 3 < 32 → m'.word32 (s + o) = m.word32 (s + o) := by
    intro o ho
    unfold word32
    have e : ∀ j, j < 4 → m'.byteAt (s + o + j) = m.byteAt (s + o + j) := fun j hj => by
      have := h (o + j) (by omega)
      rwa [← Nat.add_assoc] at this
    rw [e 3 (by omega), e 2 (by omega), e 1 (by omega), show m'.byteAt (s + o) = m.byteAt (s + o) from e 0 (by omega)]
  unfold digest
  rw [show m'.word32 s = m.word32 s from hw 0 (by omega), hw 4 (by omega), hw 8 (by omega), hw 12 (by omega), hw 16 (by omega), hw 20 (by omega),
    hw 24 (by omega), hw 28 (by omega)]

attribute [local irreducible] Sha.hashWith encodeOps finalizeEnclaveHash extendHash initEnclaveHash Sha.sha256

/-- A successful `init_enclave` leaves in the record the measurement of everything loaded until then. -/
theorem C45_init_enclave (h : g.WF) {c : Nat} {e : W} {m m' : Machine} {ops : List MeasuredOp} (hl : LockWords g m) (he : RecordOk g e)
    (hmeas : Measuring g e m ops) (hr : call g c (.initEnclave e) m = some (monitorOk, m')) :
    m'.digest (e.toNat + 80) = Sha.hashWith (8 * (encodeOps (ops ++ [.finalize])).length % 2 ^ 32) (encodeOps (ops ++ [.finalize])) := by
  have hr' : run g c (initEnclave g e) m = some (monitorOk, m') := hr
  obtain ⟨-, q2⟩ := run_initEnclave h c e hl (fun _ => he)
  rcases Classical.em (IdReady g m e ∧ m.initialized e = 0) with hok | hok
  rotate_left
  · obtain ⟨v, r1, r2⟩ := q2 hok
    rw [r1] at hr'
    injection hr' with hr'; injection hr' with hr'
    exact absurd hr' r2
  obtain ⟨hid, h4⟩ := hok
  obtain ⟨r1, r2, r3⟩ := he hid.1.1
  have hlk := lockA_lt h (idRegion_lt h e)
  have hm1 : Measuring g e (m.st (lockA g (idRegion g e)) 1) ops :=
    Measuring.other hmeas fun i hi => byteAt_congr (by rw [mem_st, if_neg (by omega)])
  obtain ⟨m2, c1, c2, -⟩ := C45_measurement_any_length (g := g) (e := e) ⟨r1, by omega⟩ hm1 c
  have h4' : m.mem (e.toNat + offIsInitialized.toNat) = 0 := h4
  unfold initEnclave at hr'
  rw [run_withLocked_ok h c e _ hid, run_bind, run_loadRec h c he hid _ (by decide) (by decide), Option.bind_some] at hr'
  dsimp only at hr'
  rw [h4', if_neg (by decide), run_bind, c1, Option.bind_some] at hr'
  dsimp only at hr'
  rw [run_bind, run_storeOff c _ _ r1 (by decide) (by show _ + 16 + 8 ≤ _; omega), Option.bind_some] at hr'
  dsimp only at hr'
  rw [run_bind, run_clearLock h (clamped_lt h e), Option.bind_some, clamped_eq h, run_pure] at hr'
  have hm' := congrArg Prod.snd (Option.some.inj hr')
  dsimp only at hm'
  subst hm'
  refine Eq.trans (digest_congr fun i hi => byteAt_congr ?_) c2
  rw [mem_st, if_neg (by omega), mem_st, if_neg (by rw [show offIsInitialized.toNat = 16 from rfl]; omega)]

/-! ### C46, through the calls -/

/-- **C46** for the monitor's calls: two enclaves created with the same arguments and loaded with the same operations (each
represented by a history of its own record), then initialized, have the same measurement: on whatever machines, at whatever
addresses, on whatever cores, and whatever else happened in between. -/
theorem C46_calls {g1 g2 : Cfg} (w1 : g1.WF) (w2 : g2.WF) {c1 c2 : Nat} {e1 e2 : W} {m1 m1' m2 m2' : Machine} {ops : List MeasuredOp}
    (l1 : LockWords g1 m1) (l2 : LockWords g2 m2) (o1 : RecordOk g1 e1) (o2 : RecordOk g2 e2)
    (h1 : Measuring g1 e1 m1 ops) (h2 : Measuring g2 e2 m2 ops)
    (r1 : call g1 c1 (.initEnclave e1) m1 = some (monitorOk, m1')) (r2 : call g2 c2 (.initEnclave e2) m2 = some (monitorOk, m2')) :
    m1'.digest (e1.toNat + 80) = m2'.digest (e2.toNat + 80) :=
  Eq.trans (C45_init_enclave w1 l1 o1 h1 r1) (C45_init_enclave w2 l2 o2 h2 r2).symm

/-! ### Every sequence of operations can be measured -/

/-- Loading operations. -/
def MeasuredOp.Load : MeasuredOp → Prop
  | .create _ _ _ _ => False
  | .finalize => False
  | _ => True

/-- A machine with `bs` at address `b`. -/
def placeBytes (m : Machine) (b : Nat) (bs : List Sha.Byte) : Machine :=
  { m with mem := fun x => if b ≤ x ∧ x < b + bs.length then wordOfBytes bs ((x - b) / 8) else m.mem x }

theorem bytes_placeBytes (m : Machine) {b : Nat} (hb : b % 8 = 0) (bs : List Sha.Byte) (hl : bs.length % 8 = 0) :
    (placeBytes m b bs).bytes b bs.length = bs := by
  have : (placeBytes m b bs).bytes b bs.length = (List.range bs.length).map (fun i => bs.getD i 0) := by
    unfold bytes
    apply List.map_congr_left
    intro i hi
    have hi := List.mem_range.1 hi
    show byteAt _ (b + i) = _
    unfold byteAt placeBytes wordOfBytes
    dsimp only
    rw [if_pos (by omega), wordOf_byte _ (by omega), show 8 * (((b + i) / 8 * 8 - b) / 8) + (b + i) % 8 = i by omega]
  rw [this]
  apply List.ext_getElem
  · simp
  · intro i h1 h2
    rw [List.getElem_map, List.getElem_range, List.getD_eq_getElem?_getD, List.getElem?_eq_getElem h2, Option.getD_some]

/-- Every list of loading operations after a creation is the list of some history, for every place of a record
and a page: `C45_measurement_any_length`, `C45_distinct` and `C46_placement` speak about all of them. -/
theorem C45_every_sequence {e p : W} (hp : RecordPlace g e) (hq : PagePlace g e p) (c : Nat) (m0 : Machine) (b k n : W) (d : Bool)
    (rest : List MeasuredOp) (hr : ∀ o, o ∈ rest → o.Ok ∧ o.Load) : ∃ m, Measuring g e m (.create b k n d :: rest) := by
  have step : ∀ (rest : List MeasuredOp), (∀ o, o ∈ rest → o.Ok ∧ o.Load) → ∀ (m : Machine) (ops : List MeasuredOp), Measuring g e m ops →
      ∃ m', Measuring g e m' (ops ++ rest) := by
    intro rest
    induction rest with
    | nil => intro _ m ops h; exact ⟨m, by rw [List.append_nil]; exact h⟩
    | cons o rest ih =>
        intro hr m ops h
        obtain ⟨ho1, ho2⟩ := hr o List.mem_cons_self
        have hobj := measuring_obj hp h
        have one : ∃ m', Measuring g e m' (ops ++ [o]) := by
          cases o with
          | create _ _ _ _ => exact absurd ho2 id
          | finalize => exact absurd ho2 id
          | pageTable va lv acl =>
              obtain ⟨m', h1, _⟩ := measure_pageTable hp.1 hp.2 c hobj va lv acl
              exact ⟨m', .pageTable h h1⟩
          | thread a b d f =>
              obtain ⟨m', h1, _⟩ := measure_thread hp.1 hp.2 c hobj a b d f
              exact ⟨m', .thread h h1⟩
          | page va acl t =>
              have ht : t.length = 4096 := ho1
              have h2 : Measuring g e (placeBytes m p.toNat t) ops := by
                refine .other h fun i hi => byteAt_congr ?_
                obtain ⟨q1, _, q3⟩ := hq
                have := hp.1
                show (if _ then _ else _) = _
                rw [if_neg (by rw [ht]; omega)]
              obtain ⟨m', h1, _⟩ := measure_page hp.1 hp.2 c (measuring_obj hp h2) va acl hq
              have h3 := Measuring.page h2 hq h1
              have h4 := bytes_placeBytes m (b := p.toNat) (by have := hq.1; omega) t (by rw [ht])
              rw [ht] at h4
              rw [h4] at h3
              exact ⟨m', h3⟩
        obtain ⟨m', h1⟩ := one
        obtain ⟨m'', h2⟩ := ih (fun o ho => hr o (List.mem_cons_of_mem _ ho)) m' _ h1
        exact ⟨m'', by rwa [List.append_assoc, List.singleton_append] at h2⟩
  obtain ⟨m, h1, _⟩ := measure_create hp.1 hp.2 c m0 b k n d
  exact step rest hr m _ (.create h1)

/-- Places for a record and a page, and a sequence with all kinds of operations. -/
example : RecordPlace toyG 0x9000 ∧ PagePlace toyG 0x9000 0x12000 ∧
    ∀ o, o ∈ [MeasuredOp.pageTable 0x10000 2 0, .page 0x10000 7 (List.replicate 4096 0xAB), .thread 1 2 3 4] → o.Ok ∧ o.Load := by
  refine ⟨⟨by decide, by set_option maxRecDepth 100000 in decide +kernel⟩, ⟨by decide, by set_option maxRecDepth 100000 in decide +kernel, by decide⟩, ?_⟩
  intro o ho
  rcases List.mem_cons.1 ho with rfl | ho
  · exact ⟨trivial, trivial⟩
  rcases List.mem_cons.1 ho with rfl | ho
  · exact ⟨List.length_replicate, trivial⟩
  rcases List.mem_cons.1 ho with rfl | ho
  · exact ⟨trivial, trivial⟩
  · cases ho

/-! ### C51 -/

/-- C51, in full. -/
def C51_statement (g : Cfg) : Prop :=
  (∀ c e p va os acl m m' ops, StateOk g c m → c < g.cores → RecordOk g e → Measuring g e m ops →
    call g c (.loadPage e p va os acl) m = some (monitorOk, m') →
    m'.bytes p.toNat 4096 = m.bytes os.toNat 4096 ∧ Measuring g e m' (ops ++ [.page va acl (m.bytes os.toNat 4096)])) ∧
  (∀ c e p va level acl m m' ops, StateOk g c m → c < g.cores → RecordOk g e → Measuring g e m ops →
    call g c (.loadPageTable e p va level acl) m = some (monitorOk, m') →
    m'.bytes p.toNat 4096 = List.replicate 4096 0 ∧ Measuring g e m' (ops ++ [.pageTable va level acl]))

/-- What `load_page` and `load_page_table` do: they check their arguments (exactly as said) and have no effect at all. Missing:
everything they are for. -/
theorem C51_loads_partial (h : g.WF) (c : Nat) (e p va acl : W) {m : Machine} (hl : LockWords g m) (he : RecordOk g e) :
    (∀ os, ∃ x, call g c (.loadPage e p va os acl) m = some (x, m) ∧ (x = monitorOk ↔ LoadPageOk g m e p va os)) ∧
    (∀ level, ∃ x, call g c (.loadPageTable e p va level acl) m = some (x, m) ∧ (x = monitorOk ↔ LoadTableOk g m e p va level)) :=
  ⟨fun os => run_loadPage h c e p va os acl hl (fun _ => he), fun level => run_loadPageTable h c e p va level acl hl (fun _ => he)⟩

/-- The length of what an object has been fed, modulo the size of its counter, can be read from it. -/
theorem hashing_length {s : W} (hp : HashPlace g s) {m : Machine} {a b : List Sha.Byte} (ha : Hashing g s m a) (hb : Hashing g s m b) :
    8 * a.length % 2 ^ 32 = 8 * b.length % 2 ^ 32 := by
  have h1 := (hashing_obj hp ha).count
  have h2 := (hashing_obj hp hb).count
  rw [h1] at h2
  have h3 := congrArg toBigEndian h2
  rw [C07_involutive, C07_involutive] at h3
  have h4 := congrArg BitVec.toNat h3
  rwa [BitVec.toNat_ofNat, BitVec.toNat_ofNat] at h4

theorem encode_length_page (va acl : W) (t : List Sha.Byte) (ht : t.length = 4096) : (MeasuredOp.page va acl t).encode.length = 4160 := by
  unfold MeasuredOp.encode
  rw [List.length_append, opBlock_length, ht]

theorem encode_length_table (va level acl : W) : (MeasuredOp.pageTable va level acl).encode.length = 64 := opBlock_length ..

/-- A page that `load_page` has accepted is never in the measurement; nor is a page table. -/
theorem C51_not_measured (h : g.WF) {c : Nat} {e p va acl : W} {m m' : Machine} {v : W} {ops : List MeasuredOp} (hl : LockWords g m) (he : RecordOk g e)
    (hp : RecordPlace g e) (hm : Measuring g e m ops) :
    (∀ os, call g c (.loadPage e p va os acl) m = some (v, m') → ¬ Measuring g e m' (ops ++ [.page va acl (m.bytes os.toNat 4096)])) ∧
    (∀ level, call g c (.loadPageTable e p va level acl) m = some (v, m') → ¬ Measuring g e m' (ops ++ [.pageTable va level acl])) := by
  obtain ⟨q1, q2⟩ := C51_loads_partial h c e p va acl hl he
  obtain ⟨a1, _⟩ := hash_addrs hp.1 hp.2
  have hhp : HashPlace g (e + offHash) := ⟨by have := hp.1; omega, by have := hp.2; omega⟩
  have key : ∀ o : MeasuredOp, o.encode.length = 4160 ∨ o.encode.length = 64 → ¬ Measuring g e m (ops ++ [o]) := by
    intro o ho hm2
    have := hashing_length hhp (C45_blocks hp hm) (C45_blocks hp hm2)
    rw [encodeOps_snoc, List.length_append] at this
    omega
  refine ⟨fun os hr => ?_, fun level hr => ?_⟩
  · obtain ⟨x, r1, _⟩ := q1 os
    rw [r1] at hr
    have : m = m' := congrArg Prod.snd (Option.some.inj hr)
    subst this
    exact key _ (Or.inl (encode_length_page _ _ _ (bytes_length ..)))
  · obtain ⟨x, r1, _⟩ := q2 level
    rw [r1] at hr
    have : m = m' := congrArg Prod.snd (Option.some.inj hr)
    subst this
    exact key _ (Or.inr (encode_length_table ..))

/-- An enclave whose measurement has begun: the state of `Props/Ids.lean` with an initialized measurement. -/
theorem measured_enclave (c : Nat) (hc : c < toyG.cores) : ∃ m, StateOk toyG c m ∧ Measuring toyG 0x9000 m [.create 0 0 0 true] ∧
    LoadPageOk toyG m 0x9000 0x12000 0 0x30000 := by
  have hf := enclM_facts
  have hp : RecordPlace toyG 0x9000 := ⟨by decide, by rw [hf.2.2.2.2.2.2.2.2.2]; decide⟩
  obtain ⟨_, mem', h1, h2⟩ := Within.run c (within_initEnclaveHash hp.1 hp.2 0 0 0 true) enclM
  have h2' : ∀ x, x < 0x9050 → mem' x = enclM.mem x := fun x hx => h2 x (by
    unfold hashSpan Span
    show ¬ (0x9000 + 80 ≤ x ∧ _)
    omega)
  have hlow : ∀ x, x < toyG.monitorTop.toNat → mem' x = enclM.mem x := fun x hx => h2' x (by have := hf.2.2.2.2.2.2.2.1; omega)
  have hok := enclM_ok c hc
  have hw : toyG.WF := toy_wf
  have hown : ∀ i, i < toyG.regions → ({ enclM with mem := mem' } : Machine).owner toyG i = enclM.owner toyG i := fun i hi => by
    show mem' _ = _
    rw [hlow _ (by have := ownerA_lt hw hi; omega)]; rfl
  have hlk : ∀ i, i < toyG.regions → mem' (lockA toyG i) = enclM.mem (lockA toyG i) := fun i hi => hlow _ (by have := lockA_lt hw hi; omega)
  have hrun : ({ enclM with mem := mem' } : Machine).running c = enclM.running c := hlow _ (by have := coreEnclaveA_lt hw hc; omega)
  refine ⟨{ enclM with mem := mem' }, ⟨fun i hi => ?_, ?_, ?_, fun e hv => ?_, hok.dma⟩, Measuring.create h1, ?_⟩
  · show mem' _ = 0 ∨ mem' _ = 1
    rw [hlk i hi]; exact hok.locks i hi
  · rw [hown 0 (by have := hw.regions_ge; omega)]; exact hok.region0
  · rw [hrun]; exact hok.caller
  · refine hok.ids e ⟨hv.1, ?_⟩
    have := hv.2
    rwa [hown _ (idRegion_lt hw e)] at this
  · have hz : enclM.mem 0x9010 = 0 ∧ enclM.mem 0x9048 = 0 ∧ enclM.mem 0x9030 = 0 ∧ enclM.mem 0x9038 = 0 ∧ enclM.locked toyG (idRegion toyG 0x9000) = false ∧
        enclM.owner toyG (idRegion toyG 0x9000) = 0x9000 := by set_option maxRecDepth 100000 in decide +kernel
    have hi := idRegion_lt hw 0x9000
    refine ⟨⟨by decide, by rw [hf.2.2.2.2.2.2.2.2.2]; decide⟩, ⟨by decide, by rw [hf.2.2.2.2.2.2.2.2.2]; decide⟩, ⟨⟨by decide, ?_⟩, ?_⟩, ?_, ?_, ?_⟩
    · rw [hown _ hi]; exact hz.2.2.2.2.2
    · have := hz.2.2.2.2.1
      unfold locked at this ⊢
      show (mem' _ != 0) = false
      rw [hlk _ hi]; exact this
    · show mem' 0x9010 = 0
      rw [h2' _ (by omega)]; exact hz.1
    · show (mem' 0x9048).toNat < _
      rw [h2' _ (by omega), hz.2.1]; decide
    · show (0 &&& mem' 0x9038) = mem' 0x9030
      rw [h2' _ (by omega), h2' _ (by omega), hz.2.2.2.1, hz.2.2.1]; rfl

/-- C51 is false of the code: a page that was loaded with success is not in the measurement. -/
theorem C51_statement_false : ∃ g, g.WF ∧ ¬ C51_statement g := by
  refine ⟨toyG, toy_wf, fun hst => ?_⟩
  have h0 : 0 < toyG.cores := by set_option maxRecDepth 100000 in decide +kernel
  obtain ⟨m, h1, h2, h3⟩ := measured_enclave 0 h0
  have hp : RecordPlace toyG 0x9000 := ⟨by decide, by rw [enclM_facts.2.2.2.2.2.2.2.2.2]; decide⟩
  obtain ⟨x, r1, r2⟩ := (C51_loads_partial toy_wf 0 0x9000 0x12000 0 7 h1.locks recordOk_encl).1 0x30000
  have hx := r2.2 h3
  subst hx
  exact (C51_not_measured toy_wf h1.locks recordOk_encl hp h2).1 _ r1 (hst.1 _ _ _ _ _ _ _ _ _ h1 h0 recordOk_encl h2 r1).2

/-- The hypotheses of `C45_init_enclave` and `C46_calls` are met: `init_enclave` succeeds on an enclave whose measurement has begun. -/
example : ∃ m m', LockWords toyG m ∧ RecordOk toyG 0x9000 ∧ Measuring toyG 0x9000 m [.create 0 0 0 true] ∧
    call toyG 0 (.initEnclave 0x9000) m = some (monitorOk, m') := by
  have h0 : 0 < toyG.cores := by set_option maxRecDepth 100000 in decide +kernel
  obtain ⟨m, h1, h2, h3⟩ := measured_enclave 0 h0
  obtain ⟨mem', r1, _⟩ := (run_initEnclave toy_wf 0 0x9000 h1.locks (fun _ => recordOk_encl)).1 ⟨h3.2.2.1, h3.2.2.2.1⟩
  exact ⟨m, _, h1.locks, recordOk_encl, h2, r1⟩

end Sanctum
