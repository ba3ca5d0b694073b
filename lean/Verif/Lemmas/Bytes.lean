import Verif.Model.Bytes
import Verif.Props.Bare
/-
The byte machine and the word machine: programs.
-/
namespace Sanctum
open Machine

variable {g : Cfg}

/-- The byte machine `x` and the word machine `m` are in the same state. -/
structure RepM (g : Cfg) (x : ByteMachine) (m : Machine) : Prop where
  mem : Rep g x.buf m
  regs : { x.regs with mem := m.mem } = m

theorem RepM.reg {x : ByteMachine} {m : Machine} (h : RepM g x m) : m = { x.regs with mem := m.mem } := h.regs.symm

theorem repM_buf {x : ByteMachine} {m : Machine} (h : RepM g x m) {b : PhysBuf} {f : Nat → W} (hb : Rep g b { m with mem := f }) :
    RepM g { x with buf := b } { m with mem := f } :=
  ⟨hb, by show ({ x.regs with mem := f } : Machine) = { m with mem := f }; rw [h.reg]⟩

theorem exec_store {c : Nat} {a v : W} {m m' : Machine} {w : W} (h : exec g c (.store a v) m = some (w, m')) :
    okAddr g a = true ∧ w = 0 ∧ m' = { m with mem := upd m.mem a.toNat v } := by
  simp only [exec] at h
  split at h
  · rename_i hok
    cases h
    exact ⟨hok, rfl, rfl⟩
  · cases h

/-- The byte machine can do what the word machine does. -/
theorem execB_rep {c : Nat} {o : Op} {x : ByteMachine} {m m' : Machine} {v : W} (h : RepM g x m) (he : exec g c o m = some (v, m')) :
    ∃ x', execB g c o x = .ok (v, x') ∧ RepM g x' m' := by
  have hset : ∀ (a v : W), okAddr g a = true → ∃ b', refSet 8 x.buf a v = .ok b' ∧ RepM g { x with buf := b' } { m with mem := upd m.mem a.toNat v } := by
    intro a v hok
    obtain ⟨b', m1, h1, h2, h3⟩ := ((C55_word_memory (c := c) h.mem a).1 hok).2.2 v
    obtain ⟨-, -, rfl⟩ := exec_store h2
    exact ⟨b', h1, repM_buf h h3⟩
  cases o with
  | load a =>
      simp only [exec] at he
      split at he
      · rename_i hok
        cases he
        exact ⟨x, by show Out.bind (refGet 8 x.buf a) _ = _; rw [((C55_word_memory (c := c) h.mem a).1 hok).1]; rfl, h⟩
      · cases he
  | store a w =>
      obtain ⟨hok, rfl, rfl⟩ := exec_store he
      obtain ⟨b', h1, h2⟩ := hset a w hok
      exact ⟨_, by show Out.bind (refSet 8 x.buf a w) _ = _; rw [h1]; rfl, h2⟩
  | load32 a =>
      have hok : okAddr32 g a = true := by
        simp only [exec] at he
        split at he
        · assumption
        · cases he
      obtain ⟨w, h1, h2, -⟩ := (C55_word_memory (c := c) h.mem a).2 hok
      rw [he] at h2
      cases h2
      exact ⟨x, by show Out.bind (refGet 4 x.buf a) _ = _; rw [h1]; rfl, h⟩
  | store32 a w =>
      have hok : okAddr32 g a = true := by
        simp only [exec] at he
        split at he
        · assumption
        · cases he
      obtain ⟨-, -, -, h3⟩ := (C55_word_memory (c := c) h.mem a).2 hok
      obtain ⟨b', m1, h1, h2, h3⟩ := h3 w
      have he' := he
      rw [h2] at he'
      cases he'
      refine ⟨{ x with buf := b' }, by show Out.bind (refSet 4 x.buf a w) _ = _; rw [h1]; rfl, ?_⟩
      simp only [exec, hok, if_true] at he
      cases he
      exact repM_buf h h3
  | tas a =>
      simp only [exec] at he
      split at he
      · rename_i hok
        cases he
        obtain ⟨b', h1, h2⟩ := hset a 1 hok
        exact ⟨_, by show Out.bind (refGet 8 x.buf a) _ = _; rw [((C55_word_memory (c := c) h.mem a).1 hok).1]; show Out.bind (refSet 8 x.buf a (1 : W)) _ = _; rw [h1]; rfl, h2⟩
      · cases he
  | fetchAdd a w =>
      simp only [exec] at he
      split at he
      · rename_i hok
        cases he
        obtain ⟨b', h1, h2⟩ := hset a (m.mem a.toNat + w) hok
        have hg := ((C55_word_memory (c := c) h.mem a).1 hok).1
        refine ⟨_, ?_, h2⟩
        show Out.bind (refGet 8 x.buf a) _ = _
        rw [hg]
        show Out.bind (Out.bind (refGet 8 x.buf a) _) _ = _
        rw [hg]
        show Out.bind (refSet 8 x.buf a (m.mem a.toNat + w : W)) _ = _
        rw [h1]
        rfl
      · cases he
  | _ =>
      simp only [exec] at he
      cases he
      first
        | exact ⟨_, rfl, h.mem, h.regs⟩
        | (have hr := h.reg; exact ⟨_, rfl, ⟨h.mem.size, h.mem.bytes⟩, by rw [hr]⟩)
        | (have hr := h.reg; refine ⟨_, ?_, h⟩; rw [hr]; rfl)

theorem runB_rep {α : Type} {c : Nat} (p : Prog α) : ∀ {x : ByteMachine} {m m' : Machine} {v : α}, RepM g x m → run g c p m = some (v, m') →
    ∃ x', runB g c p x = .ok (v, x') ∧ RepM g x' m' := by
  induction p with
  | ret a =>
      intro x m m' v h hr
      cases hr
      exact ⟨x, rfl, h⟩
  | op o k ih =>
      intro x m m' v h hr
      rw [run] at hr
      split at hr
      · rename_i w m1 he
        obtain ⟨x1, h1, h2⟩ := execB_rep h he
        obtain ⟨x2, h3, h4⟩ := ih w h2 hr
        exact ⟨x2, by rw [runB, h1]; exact h3, h4⟩
      · cases hr
  | fault => intro x m m' v h hr; cases hr
  | diverge => intro x m m' v h hr; cases hr

/-- The action's address, if any, is a multiple of the size of what it accesses. -/
def Op.Aligned : Op → Prop
  | .load a | .store a _ | .tas a | .fetchAdd a _ => a.toNat % 8 = 0
  | .load32 a | .store32 a _ => a.toNat % 4 = 0
  | _ => True

/-- All actions of the program are aligned. -/
def Prog.Aligned {α : Type} : Prog α → Prop
  | .op o k => o.Aligned ∧ ∀ v, (k v).Aligned
  | _ => True

theorem aligned_bind {α β : Type} {p : Prog α} {f : α → Prog β} (hp : p.Aligned) (hf : ∀ a, (f a).Aligned) : (p >>= f).Aligned := by
  induction p with
  | ret a => exact hf a
  | op o k ih => exact ⟨hp.1, fun v => ih v (hp.2 v)⟩
  | fault => trivial
  | diverge => trivial

theorem out_bind_ok {α β : Type} {x : Out α} {f : α → Out β} {b : β} (h : Out.bind x f = .ok b) : ∃ a, x = .ok a ∧ f a = .ok b := by
  cases x with
  | ok a => exact ⟨a, rfl, h⟩
  | abort => cases h
  | wild => cases h
  | diverge => cases h

theorem get_okAddr {x : ByteMachine} {m : Machine} (h : RepM g x m) {a : W} {v} (ha : a.toNat % 8 = 0) (hg : refGet 8 x.buf a = .ok v) : okAddr g a = true := by
  obtain ⟨h1, -⟩ := (C55_read 8 _ _ _).1 hg
  unfold InBuf at h1
  rw [h.mem.size] at h1
  exact (okAddr_iff a).2 ⟨ha, h1⟩

theorem set_okAddr {x : ByteMachine} {m : Machine} (h : RepM g x m) {a : W} {v b} (ha : a.toNat % 8 = 0) (hg : refSet 8 x.buf a v = .ok b) : okAddr g a = true := by
  obtain ⟨h1, -⟩ := (C55_write 8 _ _ _ _).1 hg
  unfold InBuf at h1
  rw [h.mem.size] at h1
  exact (okAddr_iff a).2 ⟨ha, h1⟩

theorem okAddr32_iff (a : W) : okAddr32 g a = true ↔ a.toNat % 4 = 0 ∧ a.toNat + 4 ≤ g.dramSize.toNat := by simp [okAddr32]

/-- An aligned action that the byte machine makes is one that the word machine makes. -/
theorem exec_of_execB {c : Nat} {o : Op} {x x' : ByteMachine} {m : Machine} {v : W} (h : RepM g x m) (ha : o.Aligned) (he : execB g c o x = .ok (v, x')) :
    ∃ m', exec g c o m = some (v, m') ∧ RepM g x' m' := by
  have hex : ∃ w m', exec g c o m = some (w, m') := by
    cases o with
    | load a =>
        obtain ⟨_, h1, -⟩ := out_bind_ok he
        exact ⟨_, _, if_pos (get_okAddr h ha h1)⟩
    | store a w =>
        obtain ⟨_, h1, -⟩ := out_bind_ok he
        exact ⟨_, _, if_pos (set_okAddr h ha h1)⟩
    | load32 a =>
        obtain ⟨_, h1, -⟩ := out_bind_ok he
        obtain ⟨h1, -⟩ := (C55_read 4 _ _ _).1 h1
        unfold InBuf at h1
        rw [h.mem.size] at h1
        exact ⟨_, _, if_pos ((okAddr32_iff a).2 ⟨ha, h1⟩)⟩
    | store32 a w =>
        obtain ⟨_, h1, -⟩ := out_bind_ok he
        obtain ⟨h1, -⟩ := (C55_write 4 _ _ _ _).1 h1
        unfold InBuf at h1
        rw [h.mem.size] at h1
        exact ⟨_, _, if_pos ((okAddr32_iff a).2 ⟨ha, h1⟩)⟩
    | tas a =>
        obtain ⟨_, h1, -⟩ := out_bind_ok he
        exact ⟨_, _, if_pos (get_okAddr h ha h1)⟩
    | fetchAdd a w =>
        obtain ⟨_, h1, -⟩ := out_bind_ok he
        exact ⟨_, _, if_pos (get_okAddr h ha h1)⟩
    | _ => exact ⟨_, _, rfl⟩
  obtain ⟨w, m', hw⟩ := hex
  obtain ⟨x1, h1, h2⟩ := execB_rep h hw
  rw [he] at h1
  obtain ⟨rfl, rfl⟩ := Prod.mk.inj (Out.ok.inj h1)
  exact ⟨m', hw, h2⟩

theorem run_of_runB {α : Type} {c : Nat} (p : Prog α) : ∀ {x x' : ByteMachine} {m : Machine} {v : α}, RepM g x m → p.Aligned → runB g c p x = .ok (v, x') →
    ∃ m', run g c p m = some (v, m') ∧ RepM g x' m' := by
  induction p with
  | ret a =>
      intro x x' m v h _ hr
      cases hr
      exact ⟨m, rfl, h⟩
  | op o k ih =>
      intro x x' m v h ha hr
      rw [runB] at hr
      obtain ⟨⟨w, x1⟩, h1, h2⟩ := out_bind_ok hr
      obtain ⟨m1, h3, h4⟩ := exec_of_execB h ha.1 h1
      obtain ⟨m2, h5, h6⟩ := ih w h4 (ha.2 w) h2
      exact ⟨m2, by rw [run, h3]; exact h5, h6⟩
  | fault => intro x x' m v h _ hr; cases hr
  | diverge => intro x x' m v h _ hr; cases hr

/-! ### The boot programs are aligned -/

theorem al_load {a : W} (h : a.toNat % 8 = 0) : (load a).Aligned := ⟨h, fun _ => trivial⟩
theorem al_store {a v : W} (h : a.toNat % 8 = 0) : (store a v).Aligned := ⟨h, fun _ => trivial⟩
theorem al_act {o : Op} (h : o.Aligned) : (act_ o).Aligned := ⟨h, fun _ => trivial⟩

theorem mod8_add {a b : W} (ha : a.toNat % 8 = 0) (hb : b.toNat % 8 = 0) : (a + b).toNat % 8 = 0 := by rw [BitVec.toNat_add]; omega
theorem mod8_mul {a b : W} (hb : b.toNat % 8 = 0) : (a * b).toNat % 8 = 0 := by
  rw [BitVec.toNat_mul]
  obtain ⟨k, hk⟩ := Nat.dvd_of_mod_eq_zero hb
  rw [hk, Nat.mul_left_comm]
  omega

theorem al_region (hb : g.regionBase.toNat % 8 = 0) (r : W) {o : W} (ho : o.toNat % 8 = 0) : (regionA g r + o).toNat % 8 = 0 :=
  mod8_add (mod8_add hb (mod8_mul (by decide))) ho

theorem al_setBit {b : W} (hb : b.toNat % 8 = 0) (i : W) : (setBitmapBit b i true).Aligned := by
  have ha : (b + bitmapOffset i * 8).toNat % 8 = 0 := mod8_add hb (mod8_mul (by decide))
  exact aligned_bind (al_load ha) fun w => al_store ha

theorem al_regionLoop (hb : g.regionBase.toNat % 8 = 0) (n : Nat) : ∀ i, (bootRegionLoop g n i).Aligned := by
  induction n with
  | zero => intro i; trivial
  | succ n ih =>
      intro i
      rw [bootRegionLoop]
      exact aligned_bind (al_store (al_region hb i (by decide))) fun _ => aligned_bind (al_store (al_region hb i (by decide))) fun _ =>
        aligned_bind (al_store (al_region hb i (by decide))) fun _ => aligned_bind (al_store (al_region hb i (by decide))) fun _ =>
        aligned_bind (al_store (al_region hb i (by decide))) fun _ => ih _

theorem al_bitmapLoop (hb : g.osBitmap.toNat % 8 = 0) (n : Nat) : ∀ i, (bootBitmapLoop g n i).Aligned := by
  induction n with
  | zero => intro i; trivial
  | succ n ih => intro i; rw [bootBitmapLoop]; exact aligned_bind (al_setBit hb i) fun _ => ih _

theorem al_snapshot (n : Nat) : ∀ p : W, p.toNat % 8 = 0 → (snapshotLoop n p).Aligned := by
  induction n with
  | zero => intro p _; trivial
  | succ n ih =>
      intro p hp
      rw [snapshotLoop]
      exact aligned_bind (al_load hp) fun _ => aligned_bind (ih _ (mod8_add hp (by decide))) fun _ => trivial

theorem al_protection (hb : g.osBitmap.toNat % 8 = 0) (top : W) : (bootProtection g top).Aligned := by
  unfold bootProtection
  exact aligned_bind (al_act trivial) fun _ => aligned_bind (al_act trivial) fun _ =>
    aligned_bind (aligned_bind (al_snapshot _ _ hb) fun _ => al_act trivial) fun _ => aligned_bind (al_act trivial) fun _ =>
    aligned_bind (al_act trivial) fun _ => aligned_bind (al_act trivial) fun _ => al_act trivial

theorem al_arrays (h1 : g.regionBase.toNat % 8 = 0) (h2 : g.regionsBase.toNat % 8 = 0) (h3 : g.osBitmap.toNat % 8 = 0) : (bootArrays g).Aligned :=
  aligned_bind (al_regionLoop h1 _ _) fun _ => aligned_bind (al_store h2) fun _ => al_bitmapLoop h3 _ _

theorem layout_aligned (p : Platform) (g : Cfg) : (bootLayout p g).regionBase.toNat % 8 = 0 ∧ (bootLayout p g).regionsBase.toNat % 8 = 0 ∧
    (bootLayout p g).osBitmap.toNat % 8 = 0 := by
  have h1 : (bootLayout p g).regionBase.toNat % 8 = 0 := mod8_add (by decide) (mod8_mul (by decide))
  have h2 : (bootLayout p g).regionsBase.toNat % 8 = 0 := mod8_add h1 (mod8_mul (by decide))
  exact ⟨h1, h2, mod8_add h2 (by decide)⟩

end Sanctum
