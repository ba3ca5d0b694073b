import Verif.Lemmas.Measure
import Verif.Spec.Toy
/-
C44: the hash object computes SHA-256. C45: what is fed to a measurement determines the loading operations.
C46: the measurement does not depend on placement.
-/
namespace Sanctum
open Machine

/-! ### C44 -/

/-- `init_hash` never faults, and changes nothing but the object. -/
theorem C44_init_runs {g : Cfg} {s : W} (hp : HashPlace g s) (c : Nat) (m : Machine) :
    ∃ mem', run g c (initHash s) m = some ((), { m with mem := mem' }) ∧ ∀ x, ¬ (s.toNat ≤ x ∧ x < s.toNat + 160) → mem' x = m.mem x := by
  obtain ⟨_, mem', h1, h2⟩ := Within.run c (within_initHash hp.1 hp.2) m
  exact ⟨mem', h1, h2⟩

/-- `extend_hash` never faults, and changes nothing but the object. -/
theorem C44_extend_runs {g : Cfg} {s b : W} (hp : HashPlace g s) (hb : BlockPlace g s b) (c : Nat) (m : Machine) :
    ∃ mem', run g c (extendHash s b) m = some ((), { m with mem := mem' }) ∧ ∀ x, ¬ (s.toNat ≤ x ∧ x < s.toNat + 160) → mem' x = m.mem x := by
  obtain ⟨_, mem', h1, h2⟩ := Within.run c (within_extendHash hp.1 hb.1 hp.2 hb.2.1) m
  exact ⟨mem', h1, h2⟩

/-- The result for a message of any length: the hash of the message, except that the length field of the padding
holds the message's length in bits modulo `2 ^ 32` (the counter is a `uint32_t`: "TODO: handle overflow"). -/
theorem C44_any_length {g : Cfg} {s : W} (hp : HashPlace g s) {m : Machine} {msg : List Sha.Byte} (h : Hashing g s m msg) (c : Nat) :
    ∃ mem', run g c (finalizeHash s) m = some ((), { m with mem := mem' }) ∧
      ({ m with mem := mem' } : Machine).digest s.toNat = Sha.hashWith (8 * msg.length % 2 ^ 32) msg ∧
      ∀ x, ¬ (s.toNat ≤ x ∧ x < s.toNat + 160) → mem' x = m.mem x := by
  obtain ⟨hs, hsd⟩ := id hp
  have ho := hashing_obj hp h
  have hlt := g.dramSize.isLt
  have hp1 : (s + offPadding).toNat = s.toNat + 96 := add_off (by show _ + 96 < _; omega)
  obtain ⟨m', h1, h2, _, _⟩ := run_extendHash (g := g) (b := s + offPadding) c hs hsd (by omega) (by omega) (by omega) m
  obtain ⟨_, mem', h3, h4⟩ := Within.run c (within_extendHash (g := g) (s := s) (b := s + offPadding) hs (by omega) hsd (by omega)) m
  refine ⟨mem', h3, ?_, h4⟩
  rw [h3] at h1
  have hm : ({ m with mem := mem' } : Machine) = m' := congrArg Prod.snd (Option.some.inj h1)
  rw [hm, digest_eq _ (by omega), h2, hp1, beWords_pad ho hs, ho.value, hashWith_whole ho.len (Nat.mod_lt _ (by omega))]
  have : BitVec.ofNat 32 (8 * msg.length % 2 ^ 32) = BitVec.ofNat 32 (8 * msg.length) := by
    apply BitVec.eq_of_toNat_eq; simp
  rw [this]

/-- **C44**, for messages shorter than `2 ^ 29` bytes (`2 ^ 23` blocks). Missing: longer messages, for which the
length field is wrong (`C44_any_length`). -/
theorem C44_sha256_partial {g : Cfg} {s : W} (hp : HashPlace g s) {m : Machine} {msg : List Sha.Byte} (h : Hashing g s m msg)
    (hl : msg.length < 2 ^ 29) (c : Nat) :
    ∃ mem', run g c (finalizeHash s) m = some ((), { m with mem := mem' }) ∧
      ({ m with mem := mem' } : Machine).digest s.toNat = Sha.sha256 msg ∧
      ∀ x, ¬ (s.toNat ≤ x ∧ x < s.toNat + 160) → mem' x = m.mem x := by
  have := C44_any_length hp h c
  rwa [Nat.mod_eq_of_lt (by omega)] at this

theorem length64_inj {a b : Nat} (ha : a < 2 ^ 64) (hb : b < 2 ^ 64) (h : Sha.length64 a = Sha.length64 b) : a = b := by
  unfold Sha.length64 at h
  have key : ∀ i, i < 8 → a / 2 ^ (8 * (7 - i)) % 256 = b / 2 ^ (8 * (7 - i)) % 256 := by
    intro i hi
    have h1 := congrArg (fun l => l[i]?) h
    rw [List.getElem?_map, List.getElem?_map, List.getElem?_range hi] at h1
    have h2 := congrArg BitVec.toNat (Option.some.inj h1)
    rwa [BitVec.toNat_ofNat, BitVec.toNat_ofNat] at h2
  have k0 := key 0 (by omega)
  have k1 := key 1 (by omega)
  have k2 := key 2 (by omega)
  have k3 := key 3 (by omega)
  have k4 := key 4 (by omega)
  have k5 := key 5 (by omega)
  have k6 := key 6 (by omega)
  have k7 := key 7 (by omega)
  simp only [Nat.reduceSub, Nat.reduceMul, Nat.reducePow] at *
  omega

/-- Why the bound of `C44_sha256_partial` is there: from `2 ^ 29` bytes on (and up to the lengths SHA-256 is defined for) the padded message that
is hashed, as given by `C44_any_length`, is not the one of FIPS 180-4. -/
theorem C44_wrong_padding (msg : List Sha.Byte) (h1 : 2 ^ 29 ≤ msg.length) (h2 : msg.length < 2 ^ 61) :
    Sha.padWith (8 * msg.length % 2 ^ 32) msg ≠ Sha.padWith (8 * msg.length) msg := by
  intro h
  unfold Sha.padWith at h
  have := length64_inj (by omega) (by omega) (List.append_cancel_left h)
  omega

/-- There are such messages. -/
example : 2 ^ 29 ≤ (List.replicate (2 ^ 29) (0 : Sha.Byte)).length ∧ (List.replicate (2 ^ 29) (0 : Sha.Byte)).length < 2 ^ 61 := by
  rw [List.length_replicate]; omega

/-- Places for an object and a block. -/
example : HashPlace toyG 0x9050 ∧ BlockPlace toyG 0x9050 0x12000 :=
  ⟨⟨by decide, by set_option maxRecDepth 100000 in decide +kernel⟩, ⟨by decide, by set_option maxRecDepth 100000 in decide +kernel, by decide⟩⟩

/-- A machine with the 64 bytes of a block (as eight words) at `b`. -/
def placeBlock (m : Machine) (b : Nat) (ws : Nat → W) : Machine :=
  { m with mem := fun x => if b ≤ x ∧ x < b + 64 then ws ((x - b) / 8) else m.mem x }

/-- Eight bytes as a word, least significant first. -/
def wordOf (f : Nat → Sha.Byte) : W := (f 7 ++ f 6 ++ f 5 ++ f 4 ++ f 3 ++ f 2 ++ f 1 ++ f 0 : BitVec 64)

theorem wordOf_byte (f : Nat → Sha.Byte) {i : Nat} (hi : i < 8) : (wordOf f).extractLsb' (8 * i) 8 = f i := by
  have h : i = 0 ∨ i = 1 ∨ i = 2 ∨ i = 3 ∨ i = 4 ∨ i = 5 ∨ i = 6 ∨ i = 7 := by omega
  apply BitVec.eq_of_getLsbD_eq
  intro j hj
  unfold wordOf
  rcases h with rfl | rfl | rfl | rfl | rfl | rfl | rfl | rfl <;>
    (simp only [BitVec.getLsbD_extractLsb', hj, decide_true, Bool.true_and, BitVec.getLsbD_append]
     repeat (first | rw [if_pos (by omega)] | rw [if_neg (by omega)])
     congr 1 <;> omega)

/-- The 64 bytes `blk` as eight words. -/
def wordOfBytes (blk : List Sha.Byte) (k : Nat) : W := wordOf fun i => blk.getD (8 * k + i) 0

theorem bytes_placeBlock (m : Machine) {b : Nat} (hb : b % 8 = 0) {blk : List Sha.Byte} (hl : blk.length = 64) :
    (placeBlock m b (wordOfBytes blk)).bytes b 64 = blk := by
  have : (placeBlock m b (wordOfBytes blk)).bytes b 64 = (List.range 64).map (fun i => blk.getD i 0) := by
    unfold bytes
    apply List.map_congr_left
    intro i hi
    have hi := List.mem_range.1 hi
    show byteAt _ (b + i) = _
    unfold byteAt placeBlock wordOfBytes
    dsimp only
    rw [if_pos (by omega), wordOf_byte _ (by omega), show 8 * (((b + i) / 8 * 8 - b) / 8) + (b + i) % 8 = i by omega]
  rw [this]
  apply List.ext_getElem
  · simp [hl]
  · intro i h1 h2
    rw [List.getElem_map, List.getElem_range, List.getD_eq_getElem?_getD, List.getElem?_eq_getElem h2, Option.getD_some]

/-- Every message of whole blocks is the message of some history (so `C44_sha256_partial` speaks about all of them). -/
theorem C44_every_message {g : Cfg} {s b : W} (hp : HashPlace g s) (hb : BlockPlace g s b) (hb8 : b.toNat % 8 = 0) (c : Nat) (m0 : Machine) :
    ∀ (n : Nat) (msg : List Sha.Byte), msg.length = 64 * n → ∃ m, Hashing g s m msg := by
  intro n
  induction n with
  | zero =>
      intro msg hl
      have : msg = [] := List.eq_nil_of_length_eq_zero hl
      subst this
      obtain ⟨_, h1, _⟩ := C44_init_runs hp c m0
      exact ⟨_, Hashing.init h1⟩
  | succ n ih =>
      intro msg hl
      obtain ⟨m, h⟩ := ih (msg.take (64 * n)) (by rw [List.length_take]; omega)
      have hd : (msg.drop (64 * n)).length = 64 := by rw [List.length_drop]; omega
      have h2 : Hashing g s (placeBlock m b.toNat (wordOfBytes (msg.drop (64 * n)))) (msg.take (64 * n)) := by
        refine Hashing.other h fun i hi => byteAt_congr ?_
        obtain ⟨_, _, h3⟩ := hb
        have := hp.1
        show (if _ then _ else _) = _
        rw [if_neg (by omega)]
      obtain ⟨_, h3, _⟩ := C44_extend_runs hp hb c (placeBlock m b.toNat (wordOfBytes (msg.drop (64 * n))))
      have h4 := Hashing.extend h2 hb h3
      rw [bytes_placeBlock m hb8 hd, List.take_append_drop] at h4
      exact ⟨_, h4⟩

/-! ### C45 -/

theorem le64_length (w : W) : (le64 w).length = 8 := by simp [le64]

theorem le64_inj {a b : W} (h : le64 a = le64 b) : a = b := by
  apply BitVec.eq_of_getLsbD_eq
  intro i hi
  have h1 : (le64 a)[i / 8]? = (le64 b)[i / 8]? := by rw [h]
  unfold le64 at h1
  rw [List.getElem?_map, List.getElem?_map, List.getElem?_range (by omega)] at h1
  have h2 : a.extractLsb' (8 * (i / 8)) 8 = b.extractLsb' (8 * (i / 8)) 8 := Option.some.inj h1
  have h3 := congrArg (fun v => v.getLsbD (i % 8)) h2
  simpa [show i % 8 < 8 by omega, show 8 * (i / 8) + i % 8 = i by omega] using h3

theorem opBlock_length (o p1 p2 p3 p4 s1 s2 : W) : (opBlock o p1 p2 p3 p4 s1 s2).length = 64 := by
  unfold opBlock
  simp only [List.length_append, le64_length]

theorem opBlock_inj {o p1 p2 p3 p4 s1 s2 o' p1' p2' p3' p4' s1' s2' : W} (h : opBlock o p1 p2 p3 p4 s1 s2 = opBlock o' p1' p2' p3' p4' s1' s2') :
    o = o' ∧ p1 = p1' ∧ p2 = p2' ∧ p3 = p3' ∧ p4 = p4' ∧ s1 = s1' ∧ s2 = s2' := by
  unfold opBlock at h
  have hl : ∀ a b : W, (le64 a).length = (le64 b).length := fun a b => by rw [le64_length, le64_length]
  obtain ⟨h, _⟩ := List.append_inj' h (hl _ _)
  obtain ⟨h, e6⟩ := List.append_inj' h (hl _ _)
  obtain ⟨h, e5⟩ := List.append_inj' h (hl _ _)
  obtain ⟨h, e4⟩ := List.append_inj' h (hl _ _)
  obtain ⟨h, e3⟩ := List.append_inj' h (hl _ _)
  obtain ⟨h, e2⟩ := List.append_inj' h (hl _ _)
  obtain ⟨e0, e1⟩ := List.append_inj' h (hl _ _)
  exact ⟨le64_inj e0, le64_inj e1, le64_inj e2, le64_inj e3, le64_inj e4, le64_inj e5, le64_inj e6⟩

/-- The block and the page contents of an operation. -/
theorem encode_split (o : MeasuredOp) : ∃ k p1 p2 p3 p4 s1 s2 tail, o.encode = opBlock k p1 p2 p3 p4 s1 s2 ++ tail := by
  cases o with
  | create a b n d => exact ⟨_, _, _, _, _, _, _, [], (List.append_nil _).symm⟩
  | pageTable a b d => exact ⟨_, _, _, _, _, _, _, [], (List.append_nil _).symm⟩
  | page a b t => exact ⟨_, _, _, _, _, _, _, t, rfl⟩
  | thread a b d f => exact ⟨_, _, _, _, _, _, _, [], (List.append_nil _).symm⟩
  | finalize => exact ⟨_, _, _, _, _, _, _, [], (List.append_nil _).symm⟩

theorem encode_cons {o1 o2 : MeasuredOp} {r1 r2 : List Sha.Byte} (h1 : o1.Ok) (h2 : o2.Ok) (h : o1.encode ++ r1 = o2.encode ++ r2) : o1 = o2 ∧ r1 = r2 := by
  have key : ∀ {k p1 p2 p3 p4 s1 s2 k' p1' p2' p3' p4' s1' s2' : W} {x y : List Sha.Byte},
      opBlock k p1 p2 p3 p4 s1 s2 ++ x = opBlock k' p1' p2' p3' p4' s1' s2' ++ y →
      (k = k' ∧ p1 = p1' ∧ p2 = p2' ∧ p3 = p3' ∧ p4 = p4' ∧ s1 = s1' ∧ s2 = s2') ∧ x = y := by
    intro _ _ _ _ _ _ _ _ _ _ _ _ _ _ _ _ h
    obtain ⟨e1, e2⟩ := List.append_inj h (by rw [opBlock_length, opBlock_length])
    exact ⟨opBlock_inj e1, e2⟩
  have ne : ∀ {a b : W}, (decide (a = b)) = false → a ≠ b := fun h hh => by simp [hh] at h
  cases o1 <;> cases o2 <;> simp only [MeasuredOp.encode, List.append_assoc] at h
  case create.create a b n d a' b' n' d' =>
    obtain ⟨⟨_, rfl, rfl, _, _, rfl, e⟩, rfl⟩ := key h
    have : d = d' := by cases d <;> cases d' <;> first | rfl | exact absurd e (by decide)
    subst this; exact ⟨rfl, rfl⟩
  case pageTable.pageTable => obtain ⟨⟨_, rfl, rfl, _, _, rfl, _⟩, rfl⟩ := key h; exact ⟨rfl, rfl⟩
  case thread.thread => obtain ⟨⟨_, rfl, rfl, rfl, rfl, _, _⟩, rfl⟩ := key h; exact ⟨rfl, rfl⟩
  case finalize.finalize => obtain ⟨_, rfl⟩ := key h; exact ⟨rfl, rfl⟩
  case page.page a b t a' b' t' =>
    obtain ⟨⟨_, rfl, rfl, _⟩, e⟩ := key h
    have hl : t.length = t'.length := by rw [show t.length = 4096 from h1, show t'.length = 4096 from h2]
    obtain ⟨rfl, rfl⟩ := List.append_inj e hl
    exact ⟨rfl, rfl⟩
  all_goals exact absurd (key h).1.1 (by decide)

/-- **C45**: the encoding is unambiguous. -/
theorem C45_unambiguous : ∀ (ops1 ops2 : List MeasuredOp), (∀ o, o ∈ ops1 → o.Ok) → (∀ o, o ∈ ops2 → o.Ok) →
    encodeOps ops1 = encodeOps ops2 → ops1 = ops2 := by
  have nonempty : ∀ (o : MeasuredOp) (r : List Sha.Byte), o.encode ++ r ≠ [] := by
    intro o r h
    obtain ⟨k, p1, p2, p3, p4, s1, s2, t, e⟩ := encode_split o
    have := congrArg List.length h
    rw [e, List.length_append, List.length_append, opBlock_length] at this
    exact absurd this (by show ¬ _ = 0; omega)
  intro ops1
  induction ops1 with
  | nil =>
      intro ops2 _ _ h
      cases ops2 with
      | nil => rfl
      | cons o r => exact absurd h.symm (nonempty o (encodeOps r))
  | cons o1 r1 ih =>
      intro ops2 h1 h2 h
      cases ops2 with
      | nil => exact absurd h (nonempty o1 (encodeOps r1))
      | cons o2 r2 =>
          obtain ⟨rfl, e⟩ := encode_cons (h1 _ (List.mem_cons_self ..)) (h2 _ (List.mem_cons_self ..)) h
          rw [ih r2 (fun o ho => h1 o (List.mem_cons_of_mem _ ho)) (fun o ho => h2 o (List.mem_cons_of_mem _ ho)) e]

/-- **C45**: the hash object of a record is fed exactly the encoding of the operations: each block has the arguments
of its own operation and zeros elsewhere, whatever came before. -/
theorem C45_blocks {g : Cfg} {e : W} (hp : RecordPlace g e) {m : Machine} {ops : List MeasuredOp} (h : Measuring g e m ops) :
    Hashing g (e + offHash) m (encodeOps ops) := (measuring_obj hp h).hash

theorem measuring_ok {g : Cfg} {e : W} {m : Machine} {ops : List MeasuredOp} (h : Measuring g e m ops) : ∀ o, o ∈ ops → o.Ok := by
  induction h with
  | create _ => intro o ho; simp only [List.mem_singleton] at ho; subst ho; trivial
  | pageTable _ _ ih =>
      intro o ho
      rcases List.mem_append.1 ho with h | h
      · exact ih o h
      · simp only [List.mem_singleton] at h; subst h; trivial
  | page _ _ _ ih =>
      intro o ho
      rcases List.mem_append.1 ho with h | h
      · exact ih o h
      · simp only [List.mem_singleton] at h; subst h; exact bytes_length _ _ _
  | thread _ _ ih =>
      intro o ho
      rcases List.mem_append.1 ho with h | h
      · exact ih o h
      · simp only [List.mem_singleton] at h; subst h; trivial
  | other _ _ ih => exact ih

/-- **C45**: two load histories (of any two records, in any two machines) that feed the same bytes have the same operations,
arguments and page contents. -/
theorem C45_distinct {g1 g2 : Cfg} {e1 e2 : W} {m1 m2 : Machine} {ops1 ops2 : List MeasuredOp} (h1 : Measuring g1 e1 m1 ops1)
    (h2 : Measuring g2 e2 m2 ops2) (h : encodeOps ops1 = encodeOps ops2) : ops1 = ops2 :=
  C45_unambiguous _ _ (measuring_ok h1) (measuring_ok h2) h

/-- The measurement of an enclave, for any number of operations: the hash of the encoding of its operations. -/
theorem C45_measurement_any_length {g : Cfg} {e : W} (hp : RecordPlace g e) {m : Machine} {ops : List MeasuredOp} (h : Measuring g e m ops) (c : Nat) :
    ∃ m', run g c (finalizeEnclaveHash e) m = some ((), m') ∧
      m'.digest (e.toNat + 80) = Sha.hashWith (8 * (encodeOps (ops ++ [.finalize])).length % 2 ^ 32) (encodeOps (ops ++ [.finalize])) ∧
      ∀ x, ¬ (e.toNat + 80 ≤ x ∧ x < e.toNat + 304) → m'.mem x = m.mem x := by
  obtain ⟨h8, hd⟩ := id hp
  obtain ⟨a1, a2⟩ := hash_addrs h8 hd
  obtain ⟨m1, h1, h2, h3⟩ := measure_finalize h8 hd c (measuring_obj hp h)
  obtain ⟨mem', h4, h5, h6⟩ := C44_any_length ⟨by omega, by omega⟩ h1 c
  rw [a1] at h5 h6
  refine ⟨_, h2.trans h4, h5, fun x hx => ?_⟩
  rw [← h3 x (by omega)]
  exact h6 x (by omega)

/-- The measurement of an enclave with less than `2 ^ 29` bytes of operations and pages: SHA-256 of their encoding.
Missing: longer sequences, see `C44_sha256_partial`. -/
theorem C45_measurement_partial {g : Cfg} {e : W} (hp : RecordPlace g e) {m : Machine} {ops : List MeasuredOp} (h : Measuring g e m ops)
    (hl : (encodeOps (ops ++ [.finalize])).length < 2 ^ 29) (c : Nat) :
    ∃ m', run g c (finalizeEnclaveHash e) m = some ((), m') ∧ m'.digest (e.toNat + 80) = Sha.sha256 (encodeOps (ops ++ [.finalize])) ∧
      ∀ x, ¬ (e.toNat + 80 ≤ x ∧ x < e.toNat + 304) → m'.mem x = m.mem x := by
  have := C45_measurement_any_length hp h c
  rwa [Nat.mod_eq_of_lt (by omega)] at this

/-! ### C46 -/

/-- **C46**: two enclaves loaded with the same operations, arguments and page contents get the same measurement, wherever
their records and pages are, on whatever machines, and whatever else happened in between. -/
theorem C46_placement {g1 g2 : Cfg} {e1 e2 : W} {m1 m2 : Machine} {ops : List MeasuredOp} (hp1 : RecordPlace g1 e1) (hp2 : RecordPlace g2 e2)
    (h1 : Measuring g1 e1 m1 ops) (h2 : Measuring g2 e2 m2 ops) (c1 c2 : Nat) :
    ∃ m1' m2', run g1 c1 (finalizeEnclaveHash e1) m1 = some ((), m1') ∧ run g2 c2 (finalizeEnclaveHash e2) m2 = some ((), m2') ∧
      m1'.digest (e1.toNat + 80) = m2'.digest (e2.toNat + 80) := by
  obtain ⟨m1', a1, a2, _⟩ := C45_measurement_any_length hp1 h1 c1
  obtain ⟨m2', b1, b2, _⟩ := C45_measurement_any_length hp2 h2 c2
  exact ⟨m1', m2', a1, b1, by rw [a2, b2]⟩

end Sanctum
