import Verif.Spec.Measure
import Verif.Lemmas.Hash2
import Verif.Lemmas.EnclaveCalls
/-
The measurement of an enclave is fed the encoding of its loading operations.
-/
namespace Sanctum
open Machine

theorem bytes_word (m : Machine) {a : Nat} (ha : a % 8 = 0) : m.bytes a 8 = le64 (m.mem a) := by
  unfold bytes le64
  apply List.map_congr_left
  intro i hi
  have := List.mem_range.1 hi
  show m.byteAt (a + i) = _
  unfold byteAt
  rw [show (a + i) / 8 * 8 = a by omega, show (a + i) % 8 = i by omega]

theorem bytes_block (m : Machine) {a : Nat} (ha : a % 8 = 0) : m.bytes a 64 = le64 (m.mem a) ++ le64 (m.mem (a + 8)) ++ le64 (m.mem (a + 16)) ++
    le64 (m.mem (a + 24)) ++ le64 (m.mem (a + 32)) ++ le64 (m.mem (a + 40)) ++ le64 (m.mem (a + 48)) ++ le64 (m.mem (a + 56)) := by
  rw [← bytes_word m ha, ← bytes_word m (a := a + 8) (by omega), ← bytes_word m (a := a + 16) (by omega), ← bytes_word m (a := a + 24) (by omega),
    ← bytes_word m (a := a + 32) (by omega), ← bytes_word m (a := a + 40) (by omega), ← bytes_word m (a := a + 48) (by omega),
    ← bytes_word m (a := a + 56) (by omega), ← bytes_add, ← bytes_add, ← bytes_add, ← bytes_add, ← bytes_add, ← bytes_add, ← bytes_add]

theorem mem_of_bytes {m m' : Machine} {a : Nat} (ha : a % 8 = 0) (h : ∀ i, i < 8 → m'.byteAt (a + i) = m.byteAt (a + i)) : m'.mem a = m.mem a := by
  apply BitVec.eq_of_getLsbD_eq
  intro i hi
  have := h (i / 8) (by omega)
  unfold byteAt at this
  rw [show (a + i / 8) / 8 * 8 = a by omega, show (a + i / 8) % 8 = i / 8 by omega] at this
  have h2 := congrArg (fun v => v.getLsbD (i % 8)) this
  simpa [show i % 8 < 8 by omega, show 8 * (i / 8) + i % 8 = i by omega] using h2

section
variable {g : Cfg} {e : W} (h8 : e.toNat % 8 = 0) (hd : e.toNat + 304 ≤ g.dramSize.toNat)
include h8 hd

theorem hashing_st {m : Machine} {msg : List Sha.Byte} (h : Hashing g (e + offHash) m msg) {a : Nat} (v : W) (ha : a % 8 = 0)
    (h2 : a < e.toNat + 80 ∨ e.toNat + 240 ≤ a) : Hashing g (e + offHash) (m.st a v) msg := by
  obtain ⟨h1, _⟩ := hash_addrs h8 hd
  refine Hashing.other h fun i hi => byteAt_congr ?_
  rw [h1, st_mem, upd_ne _ _ (by omega)]

/-- One block. -/
theorem run_extend_msg (c : Nat) {b : W} (hb : b.toNat % 4 = 0) (hbd : b.toNat + 64 ≤ g.dramSize.toNat)
    (hdis : b.toNat + 64 ≤ e.toNat + 80 ∨ e.toNat + 240 ≤ b.toNat) {m : Machine} {msg : List Sha.Byte} (h : Hashing g (e + offHash) m msg) :
    ∃ m', run g c (extendHash (e + offHash) b) m = some ((), m') ∧ Hashing g (e + offHash) m' (msg ++ m.bytes b.toNat 64) ∧
      ∀ x, x < e.toNat + 80 ∨ e.toNat + 240 ≤ x → m'.mem x = m.mem x := by
  obtain ⟨h1, _⟩ := hash_addrs h8 hd
  obtain ⟨r, mem', h2, h3⟩ := Within.run c (within_extendHash (g := g) (s := e + offHash) (b := b) (by omega) hb (by omega) hbd) m
  refine ⟨_, h2, Hashing.extend h ⟨hb, hbd, by omega⟩ h2, fun x hx => h3 x ?_⟩
  unfold Span; omega

/-- The block of the record. -/
theorem run_extend_block (c : Nat) {m : Machine} {msg : List Sha.Byte} (h : Hashing g (e + offHash) m msg) (o p1 p2 p3 p4 s1 s2 : W)
    (w0 : m.mem (e.toNat + 240) = o) (w1 : m.mem (e.toNat + 240 + 8) = p1) (w2 : m.mem (e.toNat + 240 + 16) = p2) (w3 : m.mem (e.toNat + 240 + 24) = p3)
    (w4 : m.mem (e.toNat + 240 + 32) = p4) (w5 : m.mem (e.toNat + 240 + 40) = s1) (w6 : m.mem (e.toNat + 240 + 48) = s2) (w7 : m.mem (e.toNat + 240 + 56) = 0) :
    ∃ m', run g c (extendHash (e + offHash) (e + offHashBlock)) m = some ((), m') ∧
      Hashing g (e + offHash) m' (msg ++ opBlock o p1 p2 p3 p4 s1 s2) ∧
      ∀ x, x < e.toNat + 80 ∨ e.toNat + 240 ≤ x → m'.mem x = m.mem x := by
  obtain ⟨_, h2⟩ := hash_addrs h8 hd
  have := run_extend_msg h8 hd c (b := e + offHashBlock) (by omega) (by omega) (by omega) h
  rw [h2, bytes_block m (by omega), w0, w1, w2, w3, w4, w5, w6, w7] at this
  exact this

theorem run_bstore (c : Nat) {off : W} (v : W) (m : Machine) (ho : off.toNat % 8 = 0) (hl : off.toNat < 64) :
    run g c (store (e + offHashBlock + off) v) m = some ((), m.st (e.toNat + 240 + off.toNat) v) := by
  obtain ⟨_, h2⟩ := hash_addrs h8 hd
  rw [run_storeOff c v m (by omega) ho (by omega), h2]
end

/-- The measurement part of a record after `ops`. -/
structure MeasureObj (g : Cfg) (e : W) (m : Machine) (ops : List MeasuredOp) : Prop where
  hash : Hashing g (e + offHash) m (encodeOps ops)
  args : ∀ o, 8 ≤ o → o < 64 → o % 8 = 0 → m.mem (e.toNat + 240 + o) = 0

theorem encodeOps_snoc (ops : List MeasuredOp) (o : MeasuredOp) : encodeOps (ops ++ [o]) = encodeOps ops ++ o.encode := by
  unfold encodeOps
  rw [List.flatMap_append]
  simp

section
variable {g : Cfg} {e : W} (h8 : e.toNat % 8 = 0) (hd : e.toNat + 304 ≤ g.dramSize.toNat) (c : Nat)
include h8 hd

theorem measure_create (m : Machine) (evBase evMask n : W) (d : Bool) :
    ∃ m', run g c (initEnclaveHash e evBase evMask n d) m = some ((), m') ∧ MeasureObj g e m' [.create evBase evMask n d] := by
  obtain ⟨h1, h2⟩ := hash_addrs h8 hd
  obtain ⟨r, mem1, hi, hk⟩ := Within.run c (within_initHash (g := g) (s := e + offHash) (by omega) (by omega)) (m.zero (e.toNat + 240) (e.toNat + 304))
  have hz : ∀ o, o < 64 → o % 8 = 0 → mem1 (e.toNat + 240 + o) = 0 := by
    intro o h3 h4
    rw [hk _ (by unfold Span; omega)]
    show (if _ then _ else _) = _
    rw [if_pos (by omega)]
  have hh : Hashing g (e + offHash) { m.zero (e.toNat + 240) (e.toNat + 304) with mem := mem1 } [] := Hashing.init hi
  have hst : ∀ {off : W} (v : W) (m : Machine), off.toNat % 8 = 0 → off.toNat < 64 →
      run g c (store (e + offHashBlock + off) v) m = some ((), m.st (e.toNat + 240 + off.toNat) v) := fun v m ho hl => run_bstore h8 hd c v m ho hl
  generalize hm0 : ({ m.zero (e.toNat + 240) (e.toNat + 304) with mem := mem1 } : Machine) = m0 at *
  have hm0' : m0.mem = mem1 := by rw [← hm0]
  rw [← hm0'] at hz
  have hh1 := hashing_st h8 hd hh (a := e.toNat + 240 + offOpcode.toNat) opInit (by show (_ + 0) % 8 = 0; omega) (by show _ ∨ _ ≤ _ + 0; omega)
  have hh2 := hashing_st h8 hd hh1 (a := e.toNat + 240 + offPtr1.toNat) evBase (by show (_ + 8) % 8 = 0; omega) (by show _ ∨ _ ≤ _ + 8; omega)
  have hh3 := hashing_st h8 hd hh2 (a := e.toNat + 240 + offPtr2.toNat) evMask (by show (_ + 16) % 8 = 0; omega) (by show _ ∨ _ ≤ _ + 16; omega)
  have hh4 := hashing_st h8 hd hh3 (a := e.toNat + 240 + offSize1.toNat) n (by show (_ + 40) % 8 = 0; omega) (by show _ ∨ _ ≤ _ + 40; omega)
  have hh5 := hashing_st h8 hd hh4 (a := e.toNat + 240 + offSize2.toNat) (b2w d) (by show (_ + 48) % 8 = 0; omega) (by show _ ∨ _ ≤ _ + 48; omega)
  have c0 : offOpcode.toNat = 0 := rfl
  have c1 : offPtr1.toNat = 8 := rfl
  have c2 : offPtr2.toNat = 16 := rfl
  have c5 : offSize1.toNat = 40 := rfl
  have c6 : offSize2.toNat = 48 := rfl
  obtain ⟨m', h3, h4, h5⟩ := run_extend_block h8 hd c hh5 opInit evBase evMask 0 0 n (b2w d) (by simp [mem_st, c0, c1, c2, c5, c6])
    (by simp [mem_st, c0, c1, c2, c5, c6]) (by simp [mem_st, c0, c1, c2, c5, c6]) (by simpa [mem_st, c0, c1, c2, c5, c6] using hz 24 (by omega) (by omega))
    (by simpa [mem_st, c0, c1, c2, c5, c6] using hz 32 (by omega) (by omega)) (by simp [mem_st, c0, c1, c2, c5, c6]) (by simp [mem_st, c0, c1, c2, c5, c6])
    (by simpa [mem_st, c0, c1, c2, c5, c6] using hz 56 (by omega) (by omega))
  unfold initEnclaveHash
  rw [run_bind, bzero, run_bzeroWords' g c _ _ _ (by omega) (by rw [h2, show (64 : W).toNat = 64 from rfl]; omega), Option.bind_some, h2,
    show e.toNat + 240 + 8 * ((64 : W).toNat / 8) = e.toNat + 304 from by rw [show (64 : W).toNat = 64 from rfl]]
  dsimp only
  rw [run_bind, hi, Option.bind_some]; dsimp only
  rw [run_bind, hst _ _ (by decide) (by decide), Option.bind_some]; dsimp only
  rw [run_bind, hst _ _ (by decide) (by decide), Option.bind_some]; dsimp only
  rw [run_bind, hst _ _ (by decide) (by decide), Option.bind_some]; dsimp only
  rw [run_bind, hst _ _ (by decide) (by decide), Option.bind_some]; dsimp only
  rw [run_bind, hst _ _ (by decide) (by decide), Option.bind_some]; dsimp only
  rw [run_bind, h3, Option.bind_some]; dsimp only
  rw [run_bind, hst _ _ (by decide) (by decide), Option.bind_some]; dsimp only
  rw [run_bind, hst _ _ (by decide) (by decide), Option.bind_some]; dsimp only
  rw [run_bind, hst _ _ (by decide) (by decide), Option.bind_some]; dsimp only
  rw [hst _ _ (by decide) (by decide)]
  refine ⟨_, rfl, ?_, ?_⟩
  · refine hashing_st h8 hd (hashing_st h8 hd (hashing_st h8 hd (hashing_st h8 hd ?_ _ ?_ ?_) _ ?_ ?_) _ ?_ ?_) _ ?_ ?_
    · have : encodeOps [.create evBase evMask n d] = [] ++ opBlock opInit evBase evMask 0 0 n (b2w d) := by
        unfold encodeOps MeasuredOp.encode b2w
        rw [List.flatMap_cons, List.flatMap_nil, List.append_nil]; rfl
      rw [this]; exact h4
    all_goals omega
  · intro o a1 a2 a3
    have : o = 8 ∨ o = 16 ∨ o = 24 ∨ o = 32 ∨ o = 40 ∨ o = 48 ∨ o = 56 := by omega
    have hz' := hz o a2 a3
    rcases this with rfl | rfl | rfl | rfl | rfl | rfl | rfl <;>
      simp [mem_st, c0, c1, c2, c5, c6, h5 _ (Or.inr (Nat.le_add_right _ _)), hz']

theorem measure_pageTable {m : Machine} {ops : List MeasuredOp} (h : MeasureObj g e m ops) (va level acl : W) :
    ∃ m', run g c (extendHashWithPageTable e va level acl) m = some ((), m') ∧ MeasureObj g e m' (ops ++ [.pageTable va level acl]) := by
  have hst : ∀ {off : W} (v : W) (m : Machine), off.toNat % 8 = 0 → off.toNat < 64 →
      run g c (store (e + offHashBlock + off) v) m = some ((), m.st (e.toNat + 240 + off.toNat) v) := fun v m ho hl => run_bstore h8 hd c v m ho hl
  have hz := h.args
  have hh0 := h.hash
  have hh1 := hashing_st h8 hd hh0 (a := e.toNat + 240 + offOpcode.toNat) opPageTable (by show (_ + 0) % 8 = 0; omega) (by show _ ∨ _ ≤ _ + 0; omega)
  have hh2 := hashing_st h8 hd hh1 (a := e.toNat + 240 + offPtr1.toNat) va (by show (_ + 8) % 8 = 0; omega) (by show _ ∨ _ ≤ _ + 8; omega)
  have hh3 := hashing_st h8 hd hh2 (a := e.toNat + 240 + offPtr2.toNat) acl (by show (_ + 16) % 8 = 0; omega) (by show _ ∨ _ ≤ _ + 16; omega)
  have hh4 := hashing_st h8 hd hh3 (a := e.toNat + 240 + offSize1.toNat) level (by show (_ + 40) % 8 = 0; omega) (by show _ ∨ _ ≤ _ + 40; omega)
  have c0 : offOpcode.toNat = 0 := rfl
  have c8 : offPtr1.toNat = 8 := rfl
  have c16 : offPtr2.toNat = 16 := rfl
  have c40 : offSize1.toNat = 40 := rfl
  obtain ⟨m', h3, h4, h5⟩ := run_extend_block h8 hd c hh4 opPageTable va acl 0 0 level 0 (by simp [mem_st, c0, c8, c16, c40])
    (by simp [mem_st, c0, c8, c16, c40])
    (by simp [mem_st, c0, c8, c16, c40])
    (by simpa [mem_st, c0, c8, c16, c40] using hz 24 (by omega) (by omega) (by omega))
    (by simpa [mem_st, c0, c8, c16, c40] using hz 32 (by omega) (by omega) (by omega))
    (by simp [mem_st, c0, c8, c16, c40])
    (by simpa [mem_st, c0, c8, c16, c40] using hz 48 (by omega) (by omega) (by omega))
    (by simpa [mem_st, c0, c8, c16, c40] using hz 56 (by omega) (by omega) (by omega))
  unfold extendHashWithPageTable
  rw [run_bind, hst _ _ (by decide) (by decide), Option.bind_some]; dsimp only
  rw [run_bind, hst _ _ (by decide) (by decide), Option.bind_some]; dsimp only
  rw [run_bind, hst _ _ (by decide) (by decide), Option.bind_some]; dsimp only
  rw [run_bind, hst _ _ (by decide) (by decide), Option.bind_some]; dsimp only
  rw [run_bind, h3, Option.bind_some]; dsimp only
  rw [run_bind, hst _ _ (by decide) (by decide), Option.bind_some]; dsimp only
  rw [run_bind, hst _ _ (by decide) (by decide), Option.bind_some]; dsimp only
  rw [hst _ _ (by decide) (by decide)]
  refine ⟨_, rfl, ?_, ?_⟩
  · rw [encodeOps_snoc]
    refine hashing_st h8 hd (hashing_st h8 hd (hashing_st h8 hd ?_ _ ?_ ?_) _ ?_ ?_) _ ?_ ?_
    · exact h4
    all_goals omega
  · intro o a1 a2 a3
    have : o = 8 ∨ o = 16 ∨ o = 24 ∨ o = 32 ∨ o = 40 ∨ o = 48 ∨ o = 56 := by omega
    have hz' := hz o a1 a2 a3
    rcases this with rfl | rfl | rfl | rfl | rfl | rfl | rfl <;>
      simp [mem_st, c0, c8, c16, c40, h5 _ (Or.inr (Nat.le_add_right _ _)), hz']

theorem measure_thread {m : Machine} {ops : List MeasuredOp} (h : MeasureObj g e m ops) (a b d f : W) :
    ∃ m', run g c (extendHashWithThread e a b d f) m = some ((), m') ∧ MeasureObj g e m' (ops ++ [.thread a b d f]) := by
  have hst : ∀ {off : W} (v : W) (m : Machine), off.toNat % 8 = 0 → off.toNat < 64 →
      run g c (store (e + offHashBlock + off) v) m = some ((), m.st (e.toNat + 240 + off.toNat) v) := fun v m ho hl => run_bstore h8 hd c v m ho hl
  have hz := h.args
  have hh0 := h.hash
  have hh1 := hashing_st h8 hd hh0 (a := e.toNat + 240 + offOpcode.toNat) opThread (by show (_ + 0) % 8 = 0; omega) (by show _ ∨ _ ≤ _ + 0; omega)
  have hh2 := hashing_st h8 hd hh1 (a := e.toNat + 240 + offPtr1.toNat) a (by show (_ + 8) % 8 = 0; omega) (by show _ ∨ _ ≤ _ + 8; omega)
  have hh3 := hashing_st h8 hd hh2 (a := e.toNat + 240 + offPtr2.toNat) b (by show (_ + 16) % 8 = 0; omega) (by show _ ∨ _ ≤ _ + 16; omega)
  have hh4 := hashing_st h8 hd hh3 (a := e.toNat + 240 + offPtr3.toNat) d (by show (_ + 24) % 8 = 0; omega) (by show _ ∨ _ ≤ _ + 24; omega)
  have hh5 := hashing_st h8 hd hh4 (a := e.toNat + 240 + offPtr4.toNat) f (by show (_ + 32) % 8 = 0; omega) (by show _ ∨ _ ≤ _ + 32; omega)
  have c0 : offOpcode.toNat = 0 := rfl
  have c8 : offPtr1.toNat = 8 := rfl
  have c16 : offPtr2.toNat = 16 := rfl
  have c24 : offPtr3.toNat = 24 := rfl
  have c32 : offPtr4.toNat = 32 := rfl
  obtain ⟨m', h3, h4, h5⟩ := run_extend_block h8 hd c hh5 opThread a b d f 0 0 (by simp [mem_st, c0, c8, c16, c24, c32])
    (by simp [mem_st, c0, c8, c16, c24, c32])
    (by simp [mem_st, c0, c8, c16, c24, c32])
    (by simp [mem_st, c0, c8, c16, c24, c32])
    (by simp [mem_st, c0, c8, c16, c24, c32])
    (by simpa [mem_st, c0, c8, c16, c24, c32] using hz 40 (by omega) (by omega) (by omega))
    (by simpa [mem_st, c0, c8, c16, c24, c32] using hz 48 (by omega) (by omega) (by omega))
    (by simpa [mem_st, c0, c8, c16, c24, c32] using hz 56 (by omega) (by omega) (by omega))
  unfold extendHashWithThread
  rw [run_bind, hst _ _ (by decide) (by decide), Option.bind_some]; dsimp only
  rw [run_bind, hst _ _ (by decide) (by decide), Option.bind_some]; dsimp only
  rw [run_bind, hst _ _ (by decide) (by decide), Option.bind_some]; dsimp only
  rw [run_bind, hst _ _ (by decide) (by decide), Option.bind_some]; dsimp only
  rw [run_bind, hst _ _ (by decide) (by decide), Option.bind_some]; dsimp only
  rw [run_bind, h3, Option.bind_some]; dsimp only
  rw [run_bind, hst _ _ (by decide) (by decide), Option.bind_some]; dsimp only
  rw [run_bind, hst _ _ (by decide) (by decide), Option.bind_some]; dsimp only
  rw [run_bind, hst _ _ (by decide) (by decide), Option.bind_some]; dsimp only
  rw [hst _ _ (by decide) (by decide)]
  refine ⟨_, rfl, ?_, ?_⟩
  · rw [encodeOps_snoc]
    refine hashing_st h8 hd (hashing_st h8 hd (hashing_st h8 hd (hashing_st h8 hd ?_ _ ?_ ?_) _ ?_ ?_) _ ?_ ?_) _ ?_ ?_
    · exact h4
    all_goals omega
  · intro o a1 a2 a3
    have : o = 8 ∨ o = 16 ∨ o = 24 ∨ o = 32 ∨ o = 40 ∨ o = 48 ∨ o = 56 := by omega
    have hz' := hz o a1 a2 a3
    rcases this with rfl | rfl | rfl | rfl | rfl | rfl | rfl <;>
      simp [mem_st, c0, c8, c16, c24, c32, h5 _ (Or.inr (Nat.le_add_right _ _)), hz']

theorem run_pageLoop : ∀ (n : Nat) (p : W) (m : Machine) (msg : List Sha.Byte), p.toNat % 4 = 0 → p.toNat + 64 * n ≤ g.dramSize.toNat →
    p.toNat + 64 * n ≤ e.toNat + 80 ∨ e.toNat + 240 ≤ p.toNat → Hashing g (e + offHash) m msg →
    ∃ m', run g c (extendHashPageLoop e n p) m = some ((), m') ∧ Hashing g (e + offHash) m' (msg ++ m.bytes p.toNat (64 * n)) ∧
      ∀ x, x < e.toNat + 80 ∨ e.toNat + 240 ≤ x → m'.mem x = m.mem x := by
  have hlt := g.dramSize.isLt
  intro n
  induction n with
  | zero => intro p m msg _ _ _ h; exact ⟨m, rfl, by rw [show m.bytes p.toNat (64 * 0) = [] from rfl, List.append_nil]; exact h, fun _ _ => rfl⟩
  | succ n ih =>
      intro p m msg h1 h2 h3 h
      obtain ⟨m1, a1, a2, a3⟩ := run_extend_msg h8 hd c (b := p) h1 (by omega) (by omega) h
      rw [extendHashPageLoop, run_bind, a1, Option.bind_some]
      cases n with
      | zero =>
          refine ⟨m1, rfl, ?_, a3⟩
          rw [show 64 * (0 + 1) = 64 from rfl]; exact a2
      | succ n =>
          have hp : (p + 64).toNat = p.toNat + 64 := add_off (by show _ + 64 < _; omega)
          obtain ⟨m2, b1, b2, b3⟩ := ih (p + 64) m1 _ (by omega) (by omega) (by omega) a2
          refine ⟨m2, b1, ?_, fun x hx => by rw [b3 x hx, a3 x hx]⟩
          rw [hp, bytes_congr (m := m) (a := p.toNat + 64) (fun i hi => byteAt_congr (a3 _ (by omega)))] at b2
          rw [show 64 * (n + 1 + 1) = 64 + 64 * (n + 1) by omega, bytes_add, ← List.append_assoc]
          exact b2

theorem measure_page {m : Machine} {ops : List MeasuredOp} (h : MeasureObj g e m ops) (va acl : W) {p : W} (hp : PagePlace g e p) :
    ∃ m', run g c (extendHashWithPage e va acl p) m = some ((), m') ∧ MeasureObj g e m' (ops ++ [.page va acl (m.bytes p.toNat 4096)]) := by
  obtain ⟨hp1, hp2, hp3⟩ := hp
  have hst : ∀ {off : W} (v : W) (m : Machine), off.toNat % 8 = 0 → off.toNat < 64 →
      run g c (store (e + offHashBlock + off) v) m = some ((), m.st (e.toNat + 240 + off.toNat) v) := fun v m ho hl => run_bstore h8 hd c v m ho hl
  have hz := h.args
  have hh0 := h.hash
  have hh1 := hashing_st h8 hd hh0 (a := e.toNat + 240 + offOpcode.toNat) opPage (by show (_ + 0) % 8 = 0; omega) (by show _ ∨ _ ≤ _ + 0; omega)
  have hh2 := hashing_st h8 hd hh1 (a := e.toNat + 240 + offPtr1.toNat) va (by show (_ + 8) % 8 = 0; omega) (by show _ ∨ _ ≤ _ + 8; omega)
  have hh3 := hashing_st h8 hd hh2 (a := e.toNat + 240 + offPtr2.toNat) acl (by show (_ + 16) % 8 = 0; omega) (by show _ ∨ _ ≤ _ + 16; omega)
  have c0 : offOpcode.toNat = 0 := rfl
  have c8 : offPtr1.toNat = 8 := rfl
  have c16 : offPtr2.toNat = 16 := rfl
  obtain ⟨m', h3, h4, h5⟩ := run_extend_block h8 hd c hh3 opPage va acl 0 0 0 0 (by simp [mem_st, c0, c8, c16])
    (by simp [mem_st, c0, c8, c16])
    (by simp [mem_st, c0, c8, c16])
    (by simpa [mem_st, c0, c8, c16] using hz 24 (by omega) (by omega) (by omega))
    (by simpa [mem_st, c0, c8, c16] using hz 32 (by omega) (by omega) (by omega))
    (by simpa [mem_st, c0, c8, c16] using hz 40 (by omega) (by omega) (by omega))
    (by simpa [mem_st, c0, c8, c16] using hz 48 (by omega) (by omega) (by omega))
    (by simpa [mem_st, c0, c8, c16] using hz 56 (by omega) (by omega) (by omega))
  unfold extendHashWithPage
  rw [run_bind, hst _ _ (by decide) (by decide), Option.bind_some]; dsimp only
  rw [run_bind, hst _ _ (by decide) (by decide), Option.bind_some]; dsimp only
  rw [run_bind, hst _ _ (by decide) (by decide), Option.bind_some]; dsimp only
  rw [run_bind, h3, Option.bind_some]; dsimp only
  rw [run_bind, hst _ _ (by decide) (by decide), Option.bind_some]; dsimp only
  rw [run_bind, hst _ _ (by decide) (by decide), Option.bind_some]; dsimp only
  obtain ⟨m2, b1, b2, b3⟩ := run_pageLoop h8 hd c 64 p _ _ (by omega) (by omega) (by omega)
    (hashing_st h8 hd (hashing_st h8 hd h4 (a := e.toNat + 240 + offPtr1.toNat) 0 (by omega) (by omega)) (a := e.toNat + 240 + offPtr2.toNat) 0 (by omega) (by omega))
  refine ⟨m2, b1, ?_, ?_⟩
  · rw [encodeOps_snoc, MeasuredOp.encode, ← List.append_assoc]
    rw [show 64 * 64 = 4096 from rfl] at b2
    rw [bytes_congr (m := m) (a := p.toNat) ?_] at b2
    · exact b2
    · intro i hi
      apply byteAt_congr
      rw [mem_st, if_neg (by omega), mem_st, if_neg (by omega), h5 _ (by omega), mem_st, if_neg (by omega), mem_st, if_neg (by omega),
        mem_st, if_neg (by omega)]
  · intro o a1 a2 a3
    have : o = 8 ∨ o = 16 ∨ o = 24 ∨ o = 32 ∨ o = 40 ∨ o = 48 ∨ o = 56 := by omega
    have hz' := hz o a1 a2 a3
    rw [b3 _ (by omega)]
    rcases this with rfl | rfl | rfl | rfl | rfl | rfl | rfl <;>
      simp [mem_st, c0, c8, c16, h5 _ (Or.inr (Nat.le_add_right _ _)), hz']

/-- `finalize_enclave_hash`. -/
theorem measure_finalize {m : Machine} {ops : List MeasuredOp} (h : MeasureObj g e m ops) :
    ∃ m1, Hashing g (e + offHash) m1 (encodeOps (ops ++ [.finalize])) ∧
      run g c (finalizeEnclaveHash e) m = run g c (finalizeHash (e + offHash)) m1 ∧ ∀ x, x < e.toNat + 80 ∨ e.toNat + 304 ≤ x → m1.mem x = m.mem x := by
  have hst : ∀ {off : W} (v : W) (m : Machine), off.toNat % 8 = 0 → off.toNat < 64 →
      run g c (store (e + offHashBlock + off) v) m = some ((), m.st (e.toNat + 240 + off.toNat) v) := fun v m ho hl => run_bstore h8 hd c v m ho hl
  have hz := h.args
  have hh0 := h.hash
  have hh1 := hashing_st h8 hd hh0 (a := e.toNat + 240 + offOpcode.toNat) opFinalize (by show (_ + 0) % 8 = 0; omega) (by show _ ∨ _ ≤ _ + 0; omega)
  have c0 : offOpcode.toNat = 0 := rfl
  obtain ⟨m', h3, h4, h5⟩ := run_extend_block h8 hd c hh1 opFinalize 0 0 0 0 0 0 (by simp [mem_st, c0])
    (by simpa [mem_st, c0] using hz 8 (by omega) (by omega) (by omega))
    (by simpa [mem_st, c0] using hz 16 (by omega) (by omega) (by omega))
    (by simpa [mem_st, c0] using hz 24 (by omega) (by omega) (by omega))
    (by simpa [mem_st, c0] using hz 32 (by omega) (by omega) (by omega))
    (by simpa [mem_st, c0] using hz 40 (by omega) (by omega) (by omega))
    (by simpa [mem_st, c0] using hz 48 (by omega) (by omega) (by omega))
    (by simpa [mem_st, c0] using hz 56 (by omega) (by omega) (by omega))
  unfold finalizeEnclaveHash
  rw [run_bind, hst _ _ (by decide) (by decide), Option.bind_some]; dsimp only
  rw [run_bind, h3, Option.bind_some]; dsimp only
  refine ⟨m', ?_, rfl, ?_⟩
  · rw [encodeOps_snoc]; exact h4
  · intro x hx
    rw [h5 x (by omega), mem_st, if_neg (by omega)]
end

/-- Every history of an enclave's record feeds its hash object the encoding of the operations. -/
theorem measuring_obj {g : Cfg} {e : W} (hp : RecordPlace g e) {m : Machine} {ops : List MeasuredOp} (h : Measuring g e m ops) : MeasureObj g e m ops := by
  obtain ⟨h8, hd⟩ := hp
  have un : ∀ {c : Nat} {p : Prog Unit} {m m' : Machine} {r : Unit} {ops : List MeasuredOp}, run g c p m = some (r, m') →
      (∃ m', run g c p m = some ((), m') ∧ MeasureObj g e m' ops) → MeasureObj g e m' ops := by
    intro c p m m' r ops h1 ⟨m2, h2, h3⟩
    rw [h1] at h2
    have : m' = m2 := congrArg Prod.snd (Option.some.inj h2)
    rw [this]; exact h3
  induction h with
  | create hr => exact un hr (measure_create h8 hd _ _ _ _ _ _)
  | pageTable _ hr ih => exact un hr (measure_pageTable h8 hd _ ih _ _ _)
  | page _ hpp hr ih => exact un hr (measure_page h8 hd _ ih _ _ hpp)
  | thread _ hr ih => exact un hr (measure_thread h8 hd _ ih _ _ _ _)
  | @other m m' ops _ hm ih =>
      obtain ⟨h1, h2⟩ := hash_addrs h8 hd
      refine ⟨Hashing.other ih.hash fun i hi => ?_, fun o a1 a2 a3 => ?_⟩
      · rw [h1]; exact hm i (by omega)
      · rw [← ih.args o a1 a2 a3]
        refine mem_of_bytes (by omega) fun i hi => ?_
        have := hm (160 + o + i) (by omega)
        rwa [show e.toNat + 80 + (160 + o + i) = e.toNat + 240 + o + i by omega] at this

end Sanctum
