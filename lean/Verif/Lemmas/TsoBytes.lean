import Verif.Spec.TsoBytes
import Verif.Props.Bytes
import Verif.Props.Buffers
/-
The machine with bytes and store buffers and the machine with words and store buffers, step by step; the serial machines with bytes and with words.
-/
namespace Sanctum
open Machine

variable {g : Cfg}

/-! ### Words -/

theorem RepM.word {x : ByteMachine} {m : Machine} (h : RepM g x m) {a : Nat} (ha : a % 8 = 0) : x.word a = m.mem a := by
  refine bytes_ext (n := 8) fun i hi => ?_
  have := leNat_byte x.buf.byte 8 a i hi
  refine this.trans ((h.mem.bytes (a + i)).trans ?_)
  rw [show (a + i) / 8 * 8 = a by omega, show (a + i) % 8 = i by omega]

theorem RepM.putWord {x : ByteMachine} {m : Machine} (h : RepM g x m) {a : Nat} (ha : a % 8 = 0) (w : W) : RepM g (x.putWord a w) (m.put a w) := by
  refine repM_buf h ⟨h.mem.size, fun b => ?_⟩
  show (if a ≤ b ∧ b < a + 8 then w.extractLsb' (8 * (b - a)) 8 else x.buf.byte b) = (upd m.mem a w (b / 8 * 8)).extractLsb' (8 * (b % 8)) 8
  split
  · rw [show b / 8 * 8 = a by omega, upd_same, show b - a = b % 8 by omega]
  · rw [upd_ne _ _ (by omega)]
    exact h.mem.bytes b

/-- The word that contains byte `a`, after a store of `v` at `a`. -/
def ByteMachine.wordPut (x : ByteMachine) (a : Nat) (v : BitVec 8) : W := (x.put a v).word (a / 8 * 8)

/-- A store of a byte is a store of the word that contains it. -/
theorem RepM.put {x : ByteMachine} {m : Machine} (h : RepM g x m) (a : Nat) (v : BitVec 8) : RepM g (x.put a v) (m.put (a / 8 * 8) (x.wordPut a v)) := by
  refine repM_buf h ⟨h.mem.size, fun b => ?_⟩
  show upd x.buf.byte a v b = (upd m.mem (a / 8 * 8) (x.wordPut a v) (b / 8 * 8)).extractLsb' (8 * (b % 8)) 8
  by_cases hb : b / 8 * 8 = a / 8 * 8
  · rw [hb, upd_same]
    have := leNat_byte (upd x.buf.byte a v) 8 (a / 8 * 8) (b % 8) (by omega)
    rw [show a / 8 * 8 + b % 8 = b by omega] at this
    exact this.symm
  · rw [upd_ne _ _ hb]
    have hba : b ≠ a := fun hh => hb (by rw [hh])
    exact (upd_ne _ _ hba).trans (h.mem.bytes b)

theorem leNat_congr {f f' : Nat → BitVec 8} (n : Nat) : ∀ a, (∀ i, i < n → f (a + i) = f' (a + i)) → leNat f a n = leNat f' a n := by
  induction n with
  | zero => intro a _; rfl
  | succ n ih =>
      intro a h
      rw [leNat, leNat, ih (a + 1) fun i hi => by have := h (i + 1) (by omega); rw [show a + 1 + i = a + (i + 1) by omega]; exact this]
      rw [show f a = f' a from h 0 (by omega)]

/-- If two machines have the same word, they have it after the store. -/
theorem wordPut_congr {x x' : ByteMachine} {a : Nat} (v : BitVec 8) (h : ∀ b, b / 8 * 8 = a / 8 * 8 → x.buf.byte b = x'.buf.byte b) : x.wordPut a v = x'.wordPut a v := by
  unfold ByteMachine.wordPut ByteMachine.word
  rw [leNat_congr 8 (a / 8 * 8) fun i hi => ?_]
  show upd x.buf.byte a v _ = upd x'.buf.byte a v _
  by_cases hb : a / 8 * 8 + i = a
  · rw [hb, upd_same, upd_same]
  · rw [upd_ne _ _ hb, upd_ne _ _ hb]
    exact h _ (by omega)

theorem RepM.byte {x : ByteMachine} {m : Machine} (h : RepM g x m) (a : Nat) : x.buf.byte a = (m.mem (a / 8 * 8)).extractLsb' (8 * (a % 8)) 8 := h.mem.bytes a

theorem RepM.same {x x' : ByteMachine} {m : Machine} (h : RepM g x m) (h' : RepM g x' m) : x.Same x' := by
  refine ⟨?_, fun f => ?_⟩
  · have h1 : x.buf.byte = x'.buf.byte := funext fun a => (h.byte a).trans (h'.byte a).symm
    have h2 : x.buf.size = x'.buf.size := h.mem.size.trans h'.mem.size.symm
    cases hx : x.buf with
    | mk s b =>
        cases hx' : x'.buf with
        | mk s' b' =>
            rw [hx, hx'] at h1 h2
            cases h1; cases h2; rfl
  · have h1 := h.regs.trans h'.regs.symm
    have h2 := congrArg (fun m : Machine => ({ m with mem := f } : Machine)) h1
    exact h2

theorem top_mod8 (hw : g.WF) : g.monitorTop.toNat % 8 = 0 := by
  obtain ⟨n, hn⟩ := hw.top_pow
  have h1 := hw.arrays_le
  have h2 := hw.osBitmap
  have h3 := hw.regionsBase
  have h4 := hw.regionBase
  have h5 := hw.cores_pos
  rw [hn] at h1 ⊢
  have h6 : 3 ≤ n := by
    rcases Nat.lt_or_ge n 3 with h | h
    · have : 2 ^ n ≤ 2 ^ 3 := Nat.pow_le_pow_right (by decide) (by omega)
      omega
    · exact h
  rw [show n = 3 + (n - 3) by omega, Nat.pow_add]
  omega

theorem regionOf_word (a : Nat) : regionOf g (a / 8 * 8) = regionOf g a := by
  unfold regionOf
  rw [show 12 + g.sp = 3 + (9 + g.sp) by omega, Nat.pow_add, ← Nat.div_div_eq_div_mul, ← Nat.div_div_eq_div_mul]
  rw [show a / 8 * 8 / 2 ^ 3 = a / 2 ^ 3 by omega]

theorem ownerA_mod8 (hw : g.WF) (i : Nat) : ownerA g i % 8 = 0 := by
  have := hw.regionBase
  unfold ownerA
  omega

theorem RepM.ownerOf (hw : g.WF) {x : ByteMachine} {m : Machine} (h : RepM g x m) (a : Nat) : x.ownerOf g a = m.owner g (regionOf g a) := h.word (ownerA_mod8 hw _)

/-! ### Buffers -/

/-- Stores that never fail. -/
def AllOps (g : Cfg) (c : Nat) (os : List Op) : Prop := ∀ o ∈ os, ∀ m, (exec g c o m).isSome

theorem performB_rep {c : Nat} {o : Op} (ho : ∀ m, (exec g c o m).isSome) {x : ByteMachine} {m : Machine} (h : RepM g x m) : RepM g (performB g c x o) (perform g c m o) := by
  have := ho m
  cases he : exec g c o m with
  | none => rw [he] at this; cases this
  | some y =>
      obtain ⟨x', h1, h2⟩ := execB_rep h (show exec g c o m = some (y.1, y.2) from he)
      unfold performB perform
      rw [he, h1]
      exact h2

theorem foldB_rep {c : Nat} : ∀ (os : List Op), AllOps g c os → ∀ {x : ByteMachine} {m : Machine}, RepM g x m →
    RepM g (os.foldl (performB g c) x) (os.foldl (perform g c) m) := by
  intro os
  induction os with
  | nil => intro _ x m h; exact h
  | cons o os ih => intro ho x m h; exact ih (fun o' h' => ho o' (List.mem_cons_of_mem _ h')) (performB_rep (ho o List.mem_cons_self) h)

/-- The machine with bytes `y` is in the state of the machine with words `τ`. -/
structure RepT (g : Cfg) (y : ByteTConf) (τ : TConf) : Prop where
  rep : RepM g y.x τ.m
  cores : τ.cores = y.cores
  bufs : τ.bufs = y.bufs
  ok : ∀ c, AllOps g c (τ.bufs c)

theorem RepT.view {y : ByteTConf} {τ : TConf} (h : RepT g y τ) (c : Nat) : RepM g (y.view g c) (τ.view g c) := by
  unfold ByteTConf.view TConf.view
  rw [← h.bufs]
  exact foldB_rep _ (h.ok c) h.rep

/-- The action can be made on any machine. -/
theorem exec_any {c : Nat} {o : Op} {s : Machine} {y : W × Machine} (h : exec g c o s = some y) (m : Machine) : ∃ v m', exec g c o m = some (v, m') := by
  have h1 := exec_isSome (g := g) (c := c) o s m
  rw [h] at h1
  cases he : exec g c o m with
  | none => rw [he] at h1; cases h1
  | some z => exact ⟨z.1, z.2, rfl⟩

/-- What the machine with bytes does, the machine with words does. -/
theorem RepT.step (hw : g.WF) {t : List Label} {y y' : ByteTConf} {τ : TConf} {s : Conf} {l : Label} (h : RepT g y τ) (hg : Good g t s) (hc : s.cores = τ.cores) (hl : TStepB g y (some l) y')
    (hns : l ≠ .soft) : ∃ τ', TStep g τ (some l) τ' ∧ RepT g y' τ' := by
  have hact : ∀ {c : Nat} {k : Call} {o : Op} {f : W → Prog W} {v : W} {x x' : ByteMachine} {m : Machine}, y.cores c = .running k (.op o f) → RepM g x m → execB g c o x = .ok (v, x') →
      τ.cores c = .running k (.op o f) ∧ (∃ m', exec g c o m = some (v, m') ∧ RepM g x' m') ∧ ∀ m, (exec g c o m).isSome := by
    intro c k o f v x x' m hrun hr hex
    rw [← h.cores] at hrun
    obtain ⟨w0, m0, h0, -⟩ := hg.act (by rw [hc]; exact hrun)
    obtain ⟨w, m', h1⟩ := exec_any h0 m
    obtain ⟨x1, h2, h3⟩ := execB_rep hr h1
    rw [hex] at h2
    obtain ⟨rfl, rfl⟩ := Prod.mk.inj (Out.ok.inj h2)
    refine ⟨hrun, ⟨m', h1, h3⟩, fun m => ?_⟩
    obtain ⟨_, _, h4⟩ := exec_any h0 m
    rw [h4]; rfl
  cases hl with
  | @start c k hlt hidle =>
      rw [← h.cores] at hidle
      exact ⟨_, .start k hlt hidle, h.rep, by show upd τ.cores c _ = upd y.cores c _; rw [h.cores], h.bufs, h.ok⟩
  | @delay c k o f v x' hrun hd hex =>
      obtain ⟨h1, ⟨m', h2, h3⟩, h4⟩ := hact hrun (h.view c) hex
      refine ⟨_, .delay h1 hd h2, h.rep, by show upd τ.cores c _ = upd y.cores c _; rw [h.cores], by show upd τ.bufs c _ = upd y.bufs c _; rw [h.bufs], fun c' => ?_⟩
      show AllOps g c' (upd τ.bufs c (τ.bufs c ++ [o]) c')
      by_cases hcc : c' = c
      · subst hcc
        rw [upd_same]
        intro o' ho'
        rcases List.mem_append.1 ho' with ho' | ho'
        · exact h.ok c' o' ho'
        · rw [List.mem_singleton.1 ho']; exact h4
      · rw [upd_ne _ _ hcc]; exact h.ok c'
  | @fenced c k o f v x' hrun hd hb hex =>
      obtain ⟨h1, ⟨m', h2, h3⟩, h4⟩ := hact hrun h.rep hex
      rw [← h.bufs] at hb
      exact ⟨_, .fenced h1 hd hb h2, h3, by show upd τ.cores c _ = upd y.cores c _; rw [h.cores], h.bufs, h.ok⟩
  | @fetch c k o f v x' hrun hd hex =>
      obtain ⟨h1, ⟨m', h2, h3⟩, h4⟩ := hact hrun (h.view c) hex
      exact ⟨_, .fetch h1 hd h2, h.rep, by show upd τ.cores c _ = upd y.cores c _; rw [h.cores], h.bufs, h.ok⟩
  | @own c k o f v x' hrun hd hex =>
      obtain ⟨h1, ⟨m', h2, h3⟩, h4⟩ := hact hrun h.rep hex
      exact ⟨_, .own h1 hd h2, h3, by show upd τ.cores c _ = upd y.cores c _; rw [h.cores], h.bufs, h.ok⟩
  | @done c k v hrun =>
      rw [← h.cores] at hrun
      exact ⟨_, .done hrun, h.rep, by show upd τ.cores c _ = upd y.cores c _; rw [h.cores], h.bufs, h.ok⟩
  | soft a v ha => exact absurd rfl hns

/-- A store of a byte by software. -/
theorem RepT.soft (hw : g.WF) {y : ByteTConf} {τ : TConf} (h : RepT g y τ) {a : Nat} (v : BitVec 8) (ha : g.monitorTop.toNat ≤ a) :
    TStep g τ (some .soft) { τ with m := τ.m.put (a / 8 * 8) (y.x.wordPut a v) } ∧ RepT g { y with x := y.x.put a v } { τ with m := τ.m.put (a / 8 * 8) (y.x.wordPut a v) } := by
  have := top_mod8 hw
  exact ⟨.soft ⟨a / 8 * 8, _, by omega, rfl⟩, h.rep.put a v, h.cores, h.bufs, h.ok⟩

theorem RepT.drainOk {τ : TConf} (h : ∀ c, AllOps g c (τ.bufs c)) {c : Nat} {o : Op} {os os' : List Op} (hb : τ.bufs c = os ++ o :: os') :
    (∀ m, (exec g c o m).isSome) ∧ ∀ c', AllOps g c' (upd τ.bufs c (os ++ os') c') := by
  have h1 := h c
  rw [hb] at h1
  refine ⟨h1 o (List.mem_append_right _ List.mem_cons_self), fun c' => ?_⟩
  by_cases hcc : c' = c
  · subst hcc
    rw [upd_same]
    intro o' ho'
    rcases List.mem_append.1 ho' with ho' | ho'
    · exact h1 o' (List.mem_append_left _ ho')
    · exact h1 o' (List.mem_append_right _ (List.mem_cons_of_mem _ ho'))
  · rw [upd_ne _ _ hcc]; exact h c'

/-- A store reaches memory. -/
theorem RepT.drain {y y' : ByteTConf} {τ : TConf} (h : RepT g y τ) (hl : TStepB g y none y') : ∃ τ', TStep g τ none τ' ∧ RepT g y' τ' := by
  cases hl with
  | @drain c o os os' hb hout =>
      rw [← h.bufs] at hb
      obtain ⟨h1, h2⟩ := RepT.drainOk h.ok hb
      exact ⟨_, .drain hb hout, performB_rep h1 h.rep, h.cores, by show upd τ.bufs c _ = upd y.bufs c _; rw [h.bufs], h2⟩

/-- The machine with bytes does what the machine with words does when a store reaches memory. -/
theorem RepT.drainB {y : ByteTConf} {τ τ' : TConf} (h : RepT g y τ) (hl : TStep g τ none τ') : ∃ y', TStepB g y none y' ∧ RepT g y' τ' := by
  cases hl with
  | @drain c o os os' hb hout =>
      obtain ⟨h1, h2⟩ := RepT.drainOk h.ok hb
      have hb' := hb
      rw [h.bufs] at hb'
      exact ⟨_, .drain hb' hout, performB_rep h1 h.rep, h.cores, by show upd τ.bufs c _ = upd y.bufs c _; rw [h.bufs], h2⟩

theorem RepT.drainsB {y : ByteTConf} {τ τ' : TConf} (h : RepT g y τ) (hl : TSteps g τ [] τ') : ∃ y', TStepsB g y [] y' ∧ RepT g y' τ' := by
  generalize ht : ([] : List Label) = t0 at hl
  induction hl with
  | refl => exact ⟨y, ht ▸ .refl y, h⟩
  | tail h1 h2 ih => simp at ht
  | drain h1 h2 ih =>
      obtain ⟨y1, q1, q2⟩ := ih ht
      obtain ⟨y2, q3, q4⟩ := q2.drainB h2
      exact ⟨y2, .drain q1 q3, q4⟩

/-! ### The serial machines -/

theorem SerialRunB.trans {a b d : SerialStateB} {h h' : List SeenByte} (h1 : SerialRunB g a h b) (h2 : SerialRunB g b h' d) : SerialRunB g a (h ++ h') d := by
  induction h2 with
  | refl => rw [List.append_nil]; exact h1
  | tail _ hs ih => rw [← List.append_assoc]; exact ih.tail hs
  | load x _ ih => rw [← List.append_assoc]; exact ih.load x
  | store x v _ ih => rw [← List.append_assoc]; exact ih.store x v

/-- The serial machine with bytes can do what the serial machine with words does. -/
theorem serialStepB_rep (hw : g.WF) {S S' : SerialState} {x : ByteMachine} {h : List Label} (hs : SerialStep g S h S') (hr : RepM g x S.m) :
    ∃ x', SerialStepB g ⟨S.phase, x⟩ h ⟨S'.phase, x'⟩ ∧ RepM g x' S'.m := by
  cases hs with
  | start h1 h2 => exact ⟨x, .start (s := ⟨S.phase, x⟩) h1 h2, hr⟩
  | effect h1 h2 =>
      obtain ⟨x', q1, q2⟩ := runB_rep _ hr h2
      exact ⟨x', .effect (s := ⟨S.phase, x⟩) h1 q1, q2⟩
  | busy h1 h2 h3 h4 => exact ⟨x, .busy (s := ⟨S.phase, x⟩) h1 h2 h3 h4, hr⟩
  | @sample c h1 =>
      have hc : x.word (clockA g) = S.m.clock g := hr.word (by have := hw.regionsBase; have := hw.regionBase; unfold clockA; omega)
      have := SerialStepB.sample (g := g) (s := ⟨S.phase, x⟩) h1
      rw [show (SerialStateB.mk S.phase x).x.word (clockA g) = S.m.clock g from hc] at this
      refine ⟨_, this, ⟨hr.mem.size, hr.mem.bytes⟩, ?_⟩
      have h2 := hr.regs
      show ({ x.regs with mem := S.m.mem, tlbFlushes := upd x.regs.tlbFlushes c (x.regs.tlbFlushes c + 1) } : Machine) = { S.m with tlbFlushes := upd S.m.tlbFlushes c (S.m.tlbFlushes c + 1) }
      rw [← h2]
  | @record c w h1 => exact ⟨_, .record (s := ⟨S.phase, x⟩) h1, hr.putWord (by unfold flushedA; omega) w⟩
  | done h1 => exact ⟨x, .done (s := ⟨S.phase, x⟩) h1, hr⟩

theorem calls_nil_of_last {h : List Seen} {e : Seen} {ls : List Label} (hne : ∀ l, e ≠ .call l) (he : h ++ [e] = ls.map .call) : False := by
  have : e ∈ ls.map .call := by rw [← he]; exact List.mem_append_right _ List.mem_cons_self
  obtain ⟨l, _, hl⟩ := List.mem_map.1 this
  exact hne l hl.symm

theorem serialRunB_rep (hw : g.WF) {S S' : SerialState} {hist : List Seen} {ls : List Label} (hs : SerialRun g S hist S') (he : hist = ls.map .call) {x : ByteMachine} (hr : RepM g x S.m) :
    ∃ x', SerialRunB g ⟨S.phase, x⟩ (ls.map .call) ⟨S'.phase, x'⟩ ∧ RepM g x' S'.m := by
  induction hs generalizing ls with
  | refl =>
      cases ls with
      | nil => exact ⟨x, .refl _, hr⟩
      | cons l ls => cases he
  | @tail S1 S2 h h' h1 h2 ih =>
      obtain ⟨l1, l2, rfl, e1, e2⟩ := List.map_eq_append_iff.1 he.symm
      obtain ⟨x1, q1, q2⟩ := ih e1.symm
      obtain ⟨x2, q3, q4⟩ := serialStepB_rep hw h2 q2
      have hl : l2 = h' := (List.map_inj_right fun a b hab => Seen.call.inj hab).1 e2
      subst hl
      rw [List.map_append]
      exact ⟨x2, q1.tail q3, q4⟩
  | load a h1 ih => exact (calls_nil_of_last (fun l hh => by cases hh) he).elim
  | store a v h1 ih => exact (calls_nil_of_last (fun l hh => by cases hh) he).elim

end Sanctum
