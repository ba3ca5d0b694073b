import Verif.Lemmas.Hash
/-
`extend_hash`, `init_hash`: effect on the hash object.
-/
namespace Sanctum
open Machine
attribute [local irreducible] Sha.schedule Sha.K Sha.rounds

section
variable {g : Cfg} {s b : W} (c : Nat)
  (hs : s.toNat % 8 = 0) (hsd : s.toNat + 160 ≤ g.dramSize.toNat)
include hs hsd

theorem run_hload (m : Machine) {j : Nat} (hj : j < 8) : run g c (load32 (at32 s j)) m = some (l32 m (s.toNat + 4 * j), m) := by
  have hlt := g.dramSize.isLt
  have h : (at32 s j).toNat = s.toNat + 4 * j := at32_toNat (by omega)
  rw [run_load32 _ _ _ _ (by rw [okAddr32_iff, h]; omega), h]

theorem run_hstore (m : Machine) {j : Nat} (v : W32) (hj : j < 8) :
    run g c (store32 (at32 s j) v) m = some ((), st32 m (s.toNat + 4 * j) v) := by
  have hlt := g.dramSize.isLt
  have h : (at32 s j).toNat = s.toNat + 4 * j := at32_toNat (by omega)
  rw [run_store32 _ _ _ _ _ (by rw [okAddr32_iff, h]; omega), h]

theorem run_hashAdd (m : Machine) {j : Nat} (x : W32) (hj : j < 8) :
    run g c (hashAdd s j x) m = some ((), st32 m (s.toNat + 4 * j) (l32 m (s.toNat + 4 * j) + x)) := by
  unfold hashAdd
  rw [run_bind, run_hload c hs hsd m hj, Option.bind_some]
  exact run_hstore c hs hsd m _ hj

/-- `extend_hash` applies the compression function to the words of the block and counts 512 bits. -/
theorem run_extendHash (hb : b.toNat % 4 = 0) (hbd : b.toNat + 64 ≤ g.dramSize.toNat)
    (hdis : b.toNat + 64 ≤ s.toNat + 32 ∨ s.toNat + 96 ≤ b.toNat) (m : Machine) :
    ∃ m', run g c (extendHash s b) m = some ((), m') ∧
      dig m' s.toNat = Sha.compress (dig m s.toNat) (beWords m b.toNat 16) ∧
      l32 m' (s.toNat + 156) = toBigEndian (toBigEndian (l32 m (s.toNat + 156)) + 512) ∧
      ∀ x, x % 4 = 0 → s.toNat + 96 ≤ x → x < s.toNat + 156 → l32 m' x = l32 m x := by
  have hlt := g.dramSize.isLt
  have hw : (s + offWorkArea).toNat = s.toNat + 32 := add_off (by show _ + 32 < _; omega)
  have hp1 : (s + offPadding).toNat = s.toNat + 96 := add_off (by show _ + 96 < _; omega)
  have hp : (s + offPadding + 60).toNat = s.toNat + 156 := by
    rw [add_off (by rw [hp1]; show _ + 60 < _; omega), hp1]; rfl
  have hpo : okAddr32 g (s + offPadding + 60) = true := by rw [okAddr32_iff, hp]; omega
  obtain ⟨r, m1, h1, h2, h3⟩ := run_hashRounds (g := g) (w := s + offWorkArea) (b := b) (m0 := m) c (by omega) (by omega) hb hbd (by omega)
    (dig m s.toNat) 64 0 ⟨l32 m (s.toNat + 4 * 0), l32 m (s.toNat + 4 * 1), l32 m (s.toNat + 4 * 2), l32 m (s.toNat + 4 * 3), l32 m (s.toNat + 4 * 4),
      l32 m (s.toNat + 4 * 5), l32 m (s.toNat + 4 * 6), l32 m (s.toNat + 4 * 7)⟩ m rfl ⟨fun t h => by omega, fun _ _ _ => rfl⟩
      (by rw [Sha.rounds]; rfl)
  have hk := h3.rest
  rw [hw] at hk
  unfold extendHash
  rw [run_bind, run_hload c hs hsd m (by omega), Option.bind_some]; dsimp only
  rw [run_bind, run_hload c hs hsd m (by omega), Option.bind_some]; dsimp only
  rw [run_bind, run_hload c hs hsd m (by omega), Option.bind_some]; dsimp only
  rw [run_bind, run_hload c hs hsd m (by omega), Option.bind_some]; dsimp only
  rw [run_bind, run_hload c hs hsd m (by omega), Option.bind_some]; dsimp only
  rw [run_bind, run_hload c hs hsd m (by omega), Option.bind_some]; dsimp only
  rw [run_bind, run_hload c hs hsd m (by omega), Option.bind_some]; dsimp only
  rw [run_bind, run_hload c hs hsd m (by omega), Option.bind_some]; dsimp only
  rw [run_bind, h1, Option.bind_some]; dsimp only
  rw [run_bind, run_hashAdd c hs hsd _ _ (by omega), Option.bind_some]; dsimp only
  rw [run_bind, run_hashAdd c hs hsd _ _ (by omega), Option.bind_some]; dsimp only
  rw [run_bind, run_hashAdd c hs hsd _ _ (by omega), Option.bind_some]; dsimp only
  rw [run_bind, run_hashAdd c hs hsd _ _ (by omega), Option.bind_some]; dsimp only
  rw [run_bind, run_hashAdd c hs hsd _ _ (by omega), Option.bind_some]; dsimp only
  rw [run_bind, run_hashAdd c hs hsd _ _ (by omega), Option.bind_some]; dsimp only
  rw [run_bind, run_hashAdd c hs hsd _ _ (by omega), Option.bind_some]; dsimp only
  rw [run_bind, run_hashAdd c hs hsd _ _ (by omega), Option.bind_some]; dsimp only
  rw [run_bind, run_load32 _ _ _ _ hpo, Option.bind_some]; dsimp only
  rw [run_store32 _ _ _ _ _ hpo, hp]
  have hin : ∀ x, x % 4 = 0 → x < s.toNat + 32 ∨ s.toNat + 96 ≤ x → l32 m1 x = l32 m x := fun x h1 h2 => hk x h1 (by omega)
  refine ⟨_, rfl, ?_, ?_, ?_⟩
  · unfold Sha.compress
    rw [← h2]
    unfold dig Sha.State.add HashRegs.st
    simp (disch := omega) [l32_st32, hin]
  · simp (disch := omega) [l32_st32, hin]
  · intro x h0 h4 h5
    have hne : ∀ (mm : Machine) a v, a % 4 = 0 → x ≠ a → l32 (st32 mm a v) x = l32 mm x := fun mm a v ha hx => by
      rw [l32_st32 mm v ha h0, if_neg hx]
    rw [hne _ _ _ (by omega) (by omega), hne _ _ _ (by omega) (by omega), hne _ _ _ (by omega) (by omega), hne _ _ _ (by omega) (by omega),
      hne _ _ _ (by omega) (by omega), hne _ _ _ (by omega) (by omega), hne _ _ _ (by omega) (by omega), hne _ _ _ (by omega) (by omega),
      hne _ _ _ (by omega) (by omega), hin x h0 (by omega)]

theorem l32_zero (m : Machine) {lo hi x : Nat} (hlo : lo % 8 = 0) (hhi : hi % 8 = 0) (hx : x % 4 = 0) :
    l32 (m.zero lo hi) x = if lo ≤ x ∧ x < hi then 0 else l32 m x := by
  unfold l32 Machine.zero
  dsimp only
  by_cases h : lo ≤ x ∧ x < hi
  · rw [if_pos h, if_pos (by omega)]
    unfold lane32
    split <;> rfl
  · rw [if_neg h, if_neg (by omega)]

/-- `init_hash`: the initial hash value and an almost empty padding block. -/
theorem run_initHash (m : Machine) :
    ∃ m', run g c (initHash s) m = some ((), m') ∧ dig m' s.toNat = Sha.H0 ∧
      l32 m' (s.toNat + 96) = toBigEndian (1 <<< 31) ∧ ∀ x, x % 4 = 0 → s.toNat + 96 < x → x < s.toNat + 160 → l32 m' x = 0 := by
  have hlt := g.dramSize.isLt
  have hp1 : (s + offPadding).toNat = s.toNat + 96 := add_off (by show _ + 96 < _; omega)
  have hH : Sha.H0 = ⟨0x6a09e667, 0xbb67ae85, 0x3c6ef372, 0xa54ff53a, 0x510e527f, 0x9b05688c, 0x1f83d9ab, 0x5be0cd19⟩ := by decide +kernel
  unfold initHash
  rw [run_bind, run_hstore c hs hsd _ _ (by omega), Option.bind_some]; dsimp only
  rw [run_bind, run_hstore c hs hsd _ _ (by omega), Option.bind_some]; dsimp only
  rw [run_bind, run_hstore c hs hsd _ _ (by omega), Option.bind_some]; dsimp only
  rw [run_bind, run_hstore c hs hsd _ _ (by omega), Option.bind_some]; dsimp only
  rw [run_bind, run_hstore c hs hsd _ _ (by omega), Option.bind_some]; dsimp only
  rw [run_bind, run_hstore c hs hsd _ _ (by omega), Option.bind_some]; dsimp only
  rw [run_bind, run_hstore c hs hsd _ _ (by omega), Option.bind_some]; dsimp only
  rw [run_bind, run_hstore c hs hsd _ _ (by omega), Option.bind_some]; dsimp only
  rw [run_bind, bzero, run_bzeroWords' g c _ _ _ (by rw [hp1]; omega) (by rw [hp1, show (64 : W).toNat = 64 from rfl]; omega), Option.bind_some]; dsimp only
  rw [run_store32 _ _ _ _ _ (by rw [okAddr32_iff, hp1]; omega), hp1, show s.toNat + 96 + 8 * ((64 : W).toNat / 8) = s.toNat + 160 from by
    rw [show (64 : W).toNat = 64 from rfl]]
  refine ⟨_, rfl, ?_, ?_, ?_⟩
  · rw [hH]
    unfold dig
    simp (disch := omega) [l32_st32, l32_zero]
  · rw [l32_st32 _ _ (by omega) (by omega), if_pos rfl]
  · intro x hx h1 h2
    rw [l32_st32 _ _ (by omega) hx, if_neg (by omega), l32_zero hs hsd _ (by omega) (by omega) hx, if_pos (by omega)]
end

/-! ### The object after a history -/

theorem words_append (x y : List Sha.Byte) : ∀ n, x.length = 4 * n → Sha.words (x ++ y) = Sha.words x ++ Sha.words y := by
  intro n
  induction n generalizing x with
  | zero =>
      intro h
      have : x = [] := List.eq_nil_of_length_eq_zero h
      subst this; rfl
  | succ n ih =>
      intro h
      match x, h with
      | a :: b :: c :: d :: r, h =>
          have hr : r.length = 4 * n := by simp only [List.length_cons] at h; omega
          show Sha.bigEndian a b c d :: Sha.words (r ++ y) = Sha.bigEndian a b c d :: (Sha.words r ++ Sha.words y)
          rw [ih r hr]

theorem words_length (n : Nat) : ∀ x : List Sha.Byte, x.length = 4 * n → (Sha.words x).length = n := by
  induction n with
  | zero => intro x h; have : x = [] := List.eq_nil_of_length_eq_zero h; subst this; rfl
  | succ n ih =>
      intro x h
      match x, h with
      | a :: b :: c :: d :: r, h =>
          have hr : r.length = 4 * n := by simp only [List.length_cons] at h; omega
          rw [Sha.words, List.length_cons, ih r hr]

theorem blocks_append (y : List Sha.Word) (k : Nat) : ∀ n (x : List Sha.Word), x.length = 16 * n → Sha.blocks (n + k) (x ++ y) = Sha.blocks n x ++ Sha.blocks k y := by
  intro n
  induction n with
  | zero =>
      intro x h
      have : x = [] := List.eq_nil_of_length_eq_zero h
      subst this; rw [Nat.zero_add]; rfl
  | succ n ih =>
      intro x h
      rw [show n + 1 + k = n + k + 1 by omega, Sha.blocks, Sha.blocks, List.take_append_of_le_length (by omega), List.drop_append_of_le_length (by omega),
        ih _ (by rw [List.length_drop]; omega)]
      rfl

/-- The hash value after the whole blocks of `msg`. -/
def absorbed (msg : List Sha.Byte) : Sha.State := (Sha.blocks (msg.length / 64) (Sha.words msg)).foldl Sha.compress Sha.H0

theorem absorbed_append {msg blk : List Sha.Byte} (h : msg.length % 64 = 0) (hb : blk.length = 64) :
    absorbed (msg ++ blk) = Sha.compress (absorbed msg) (Sha.words blk) := by
  unfold absorbed
  have hl : (Sha.words msg).length = 16 * (msg.length / 64) := by rw [words_length (16 * (msg.length / 64)) msg (by omega)]
  have hlb : (Sha.words blk).length = 16 := words_length 16 blk (by omega)
  rw [words_append msg blk (16 * (msg.length / 64)) (by omega), List.length_append, hb, show (msg.length + 64) / 64 = msg.length / 64 + 1 by omega,
    blocks_append _ _ _ _ hl, List.foldl_append]
  show Sha.compress _ ((Sha.words blk).take 16) = _
  rw [List.take_of_length_le (by omega)]

/-- What the memory of a hash object says after it has been fed `msg`. -/
structure HashObj (m : Machine) (s : Nat) (msg : List Sha.Byte) : Prop where
  len : msg.length % 64 = 0
  value : dig m s = absorbed msg
  one : l32 m (s + 96) = toBigEndian (1 <<< 31)
  zeros : ∀ x, x % 4 = 0 → s + 96 < x → x < s + 156 → l32 m x = 0
  count : l32 m (s + 156) = toBigEndian (BitVec.ofNat 32 (8 * msg.length))

theorem HashObj.congr {m m' : Machine} {s : Nat} {msg : List Sha.Byte} (hs : s % 8 = 0) (h : HashObj m s msg)
    (hm : ∀ i, i < 160 → m'.byteAt (s + i) = m.byteAt (s + i)) : HashObj m' s msg := by
  have hl : ∀ o, o % 4 = 0 → o < 160 → l32 m' (s + o) = l32 m (s + o) := fun o h1 h2 => l32_congr (by omega) fun i hi => by
    rw [Nat.add_assoc]; exact hm _ (by omega)
  refine ⟨h.len, ?_, ?_, ?_, ?_⟩
  · rw [← h.value]; unfold dig
    rw [show l32 m' s = l32 m s from hl 0 (by omega) (by omega), hl 4 (by omega) (by omega), hl 8 (by omega) (by omega), hl 12 (by omega) (by omega),
      hl 16 (by omega) (by omega), hl 20 (by omega) (by omega), hl 24 (by omega) (by omega), hl 28 (by omega) (by omega)]
  · rw [hl 96 (by omega) (by omega), h.one]
  · intro x h1 h2 h3
    have := hl (x - s) (by omega) (by omega)
    rw [show s + (x - s) = x by omega] at this
    rw [this, h.zeros x h1 h2 h3]
  · rw [hl 156 (by omega) (by omega), h.count]

theorem hashing_obj {g : Cfg} {s : W} (hp : HashPlace g s) {m : Machine} {msg : List Sha.Byte} (h : Hashing g s m msg) : HashObj m s.toNat msg := by
  obtain ⟨hs, hsd⟩ := hp
  induction h with
  | @init c m m' r hr =>
      obtain ⟨m1, h1, h2, h3, h4⟩ := run_initHash c hs hsd m
      rw [hr] at h1
      have : m' = m1 := congrArg Prod.snd (Option.some.inj h1)
      subst this
      refine ⟨rfl, h2, h3, fun x a b d => h4 x a b (by omega), ?_⟩
      rw [h4 _ (by omega) (by omega) (by omega)]; rfl
  | @extend c m m' r b msg _ hb hr ih =>
      obtain ⟨hb1, hb2, hb3⟩ := hb
      obtain ⟨m1, h1, h2, h3, h4⟩ := run_extendHash c hs hsd hb1 hb2 (by omega) m
      rw [hr] at h1
      have : m' = m1 := congrArg Prod.snd (Option.some.inj h1)
      subst this
      refine ⟨by rw [List.length_append, bytes_length]; have := ih.len; omega, ?_, ?_, fun x a b d => ?_, ?_⟩
      · rw [h2, ih.value, absorbed_append ih.len (bytes_length _ _ _), words_bytes m 16 _ hb1]
      · rw [h4 _ (by omega) (by omega) (by omega), ih.one]
      · rw [h4 _ a (by omega) (by omega), ih.zeros x a b d]
      · rw [h3, ih.count, C07_involutive, List.length_append, bytes_length]
        refine congrArg toBigEndian ?_
        apply BitVec.eq_of_toNat_eq
        rw [BitVec.toNat_add, BitVec.toNat_ofNat, BitVec.toNat_ofNat, show (512 : W32).toNat = 512 from rfl]
        omega
  | @other m m' msg _ hm ih => exact ih.congr hs hm

/-! ### The padding block -/

theorem bigEndian_ofNat (n : Nat) : Sha.bigEndian (BitVec.ofNat 8 (n / 2 ^ 24)) (BitVec.ofNat 8 (n / 2 ^ 16)) (BitVec.ofNat 8 (n / 2 ^ 8))
    (BitVec.ofNat 8 (n / 2 ^ 0)) = BitVec.ofNat 32 n := by
  unfold Sha.bigEndian
  apply BitVec.eq_of_getLsbD_eq
  intro i hi
  simp only [BitVec.getLsbD_append, BitVec.getLsbD_ofNat, Nat.testBit_div_two_pow]
  by_cases h1 : i < 8
  · simp [h1, hi]
  · by_cases h2 : i < 16
    · simp [h1, show i - 8 < 8 by omega, show i - 8 + 8 = i by omega, hi]
    · by_cases h3 : i < 24
      · simp [h1, show ¬ i - 8 < 8 by omega, show i - 8 - 8 < 8 by omega, show i - 8 - 8 + 16 = i by omega, hi]
      · simp [h1, show ¬ i - 8 < 8 by omega, show ¬ i - 8 - 8 < 8 by omega, show i - 8 - 8 - 8 < 8 by omega, show i - 8 - 8 - 8 + 24 = i by omega, hi]

theorem words_pad {L : Nat} (hL : L < 2 ^ 32) : Sha.words ([0x80] ++ List.replicate 55 0 ++ Sha.length64 L) =
    0x80000000 :: (List.replicate 14 0 ++ [BitVec.ofNat 32 L]) := by
  have h0 : ∀ k, 32 ≤ k → BitVec.ofNat 8 (L / 2 ^ k) = 0 := fun k hk => by
    rw [Nat.div_eq_of_lt (Nat.lt_of_lt_of_le hL (Nat.pow_le_pow_right (by omega) hk))]; rfl
  have hl : Sha.length64 L = [0, 0, 0, 0, BitVec.ofNat 8 (L / 2 ^ 24), BitVec.ofNat 8 (L / 2 ^ 16), BitVec.ofNat 8 (L / 2 ^ 8), BitVec.ofNat 8 (L / 2 ^ 0)] := by
    show [BitVec.ofNat 8 (L / 2 ^ 56), BitVec.ofNat 8 (L / 2 ^ 48), BitVec.ofNat 8 (L / 2 ^ 40), BitVec.ofNat 8 (L / 2 ^ 32),
      BitVec.ofNat 8 (L / 2 ^ 24), BitVec.ofNat 8 (L / 2 ^ 16), BitVec.ofNat 8 (L / 2 ^ 8), BitVec.ofNat 8 (L / 2 ^ 0)] = _
    rw [h0 48 (by omega), h0 40 (by omega), h0 32 (by omega), h0 56 (by omega)]
  rw [hl, ← bigEndian_ofNat L]
  rfl

theorem beWords_pad {m : Machine} {s : Nat} {msg : List Sha.Byte} (h : HashObj m s msg) (hs : s % 8 = 0) :
    beWords m (s + 96) 16 = 0x80000000 :: (List.replicate 14 0 ++ [BitVec.ofNat 32 (8 * msg.length)]) := by
  have e : beWords m (s + 96) 16 = toBigEndian (l32 m (s + 96 + 4 * 0)) :: ((List.range 14).map (fun i => toBigEndian (l32 m (s + 96 + 4 * (i + 1)))) ++
      [toBigEndian (l32 m (s + 96 + 4 * 15))]) := rfl
  rw [e, show s + 96 + 4 * 0 = s + 96 by omega, show s + 96 + 4 * 15 = s + 156 by omega, h.one, h.count, C07_involutive, C07_involutive]
  have : (List.range 14).map (fun i => toBigEndian (l32 m (s + 96 + 4 * (i + 1)))) = (List.range 14).map (fun _ => (0 : Sha.Word)) := by
    apply List.map_congr_left
    intro i hi
    have := List.mem_range.1 hi
    show toBigEndian _ = _
    rw [h.zeros _ (by omega) (by omega) (by omega)]; rfl
  rw [this]
  rfl

/-- Finalizing gives the hash of the message, with a length field of 32 bits. -/
theorem hashWith_whole {msg : List Sha.Byte} (h : msg.length % 64 = 0) {L : Nat} (hL : L < 2 ^ 32) :
    Sha.hashWith L msg = Sha.compress (absorbed msg) (0x80000000 :: (List.replicate 14 0 ++ [BitVec.ofNat 32 L])) := by
  have hpad : Sha.padWith L msg = msg ++ ([0x80] ++ List.replicate 55 0 ++ Sha.length64 L) := by
    unfold Sha.padWith
    rw [h, List.append_assoc, List.append_assoc, List.append_assoc]
  rw [← words_pad hL, ← absorbed_append h (by simp [Sha.length64]), ← hpad]
  rfl

end Sanctum
