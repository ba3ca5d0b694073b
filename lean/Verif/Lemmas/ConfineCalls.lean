import Verif.Lemmas.ConfineSound
/-
The calls in the confinement logic.
-/
namespace Sanctum
open Machine

variable {g : Cfg} {c : Nat} {α β : Type} {A H T S : Nat → Prop}

/-! ### Code that stays inside a range above the monitor's memory -/

section
variable (hw : g.WF) {lo hi : Nat} (ht : g.monitorTop.toNat ≤ lo) (hS : ∀ x, lo ≤ x → x < hi → S x)
include hw ht hS

theorem in_load {a : W} (h1 : lo ≤ a.toNat) (h2 : a.toNat < hi) : (load a).High g S :=
  ⟨⟨fun x hx => by have hx : a.toNat = x := hx; exact hx ▸ ⟨by omega, hS _ h1 h2⟩, fun hh => by cases hh⟩, fun _ => trivial⟩

theorem in_store {a v : W} (h1 : lo ≤ a.toNat) (h2 : a.toNat < hi) : (store a v).High g S :=
  ⟨⟨fun x hx => by have hx : a.toNat = x := hx; exact hx ▸ ⟨by omega, hS _ h1 h2⟩, fun hh => by cases hh⟩, fun _ => trivial⟩

theorem in_load32 {b : W} {i : Nat} (h8 : b.toNat % 8 = 0) (h1 : lo ≤ b.toNat) (h2 : b.toNat + 4 * i < hi) (hd : b.toNat + 4 * i < 2 ^ 64) :
    (load32 (at32 b i)).High g S := by
  refine ⟨⟨fun x hx => ?_, fun hh => by cases hh⟩, fun _ => trivial⟩
  have hx : (at32 b i).toNat / 8 * 8 = x := hx
  rw [at32_toNat hd] at hx
  exact ⟨by omega, hS x (by omega) (by omega)⟩

theorem in_store32 {b : W} {i : Nat} {v : W32} (h8 : b.toNat % 8 = 0) (h1 : lo ≤ b.toNat) (h2 : b.toNat + 4 * i < hi) (hd : b.toNat + 4 * i < 2 ^ 64) :
    (store32 (at32 b i) v).High g S := by
  refine ⟨⟨fun x hx => ?_, fun hh => by cases hh⟩, fun _ => trivial⟩
  have hx : (at32 b i).toNat / 8 * 8 = x := hx
  rw [at32_toNat hd] at hx
  exact ⟨by omega, hS x (by omega) (by omega)⟩

theorem in_hashRounds {s b : W} (hs : s.toNat % 8 = 0) (hb : b.toNat % 8 = 0) (h1 : s.toNat + 160 ≤ hi) (h2 : b.toNat + 64 ≤ hi)
    (h3 : lo ≤ s.toNat) (h4 : lo ≤ b.toNat) (hhi : hi < 2 ^ 64) :
    ∀ (n i : Nat) (r : HashRegs), i + n ≤ 64 → (hashRounds (s + offWorkArea) b n i r).High g S := by
  have hwk : (s + offWorkArea).toNat = s.toNat + 32 := add_off (by show s.toNat + 32 < _; omega)
  have hld : ∀ j, j < 16 → (load32 (at32 (s + offWorkArea) j)).High g S := by
    intro j hj; exact in_load32 hw ht hS (by omega) (by omega) (by omega) (by omega)
  have hst : ∀ j v, j < 16 → (store32 (at32 (s + offWorkArea) j) v).High g S := by
    intro j v hj; exact in_store32 hw ht hS (by omega) (by omega) (by omega) (by omega)
  intro n
  induction n with
  | zero => intro i r _; exact High.pure _
  | succ n ih =>
      intro i r hi
      rw [hashRounds]
      refine High.bind ?_ (fun _ => ih _ _ (by omega))
      unfold hashSchedule
      refine High.ite (fun h16 => ?_) (fun h16 => ?_)
      · exact High.bind (in_load32 hw ht hS (by omega) (by omega) (by omega) (by omega)) fun _ => High.bind (hst _ _ (by omega)) fun _ => hld _ (by omega)
      · refine High.bind (hld _ (by omega)) fun _ => High.bind (hld _ (by omega)) fun _ => High.bind (hld _ (by omega)) fun _ =>
          High.bind (hld _ (by omega)) fun _ => High.bind (hst _ _ (by omega)) fun _ => hld _ (by omega)

theorem in_at32 {b : W} : at32 b 0 = b := by unfold at32; simp

theorem in_extendHash {s b : W} (hs : s.toNat % 8 = 0) (hb : b.toNat % 8 = 0) (h1 : s.toNat + 160 ≤ hi) (h2 : b.toNat + 64 ≤ hi)
    (h3 : lo ≤ s.toNat) (h4 : lo ≤ b.toNat) (hhi : hi < 2 ^ 64) : (extendHash s b).High g S := by
  have hld : ∀ j, j < 8 → (load32 (at32 s j)).High g S := by
    intro j hj; exact in_load32 hw ht hS (by omega) (by omega) (by omega) (by omega)
  have hst : ∀ j v, j < 8 → (store32 (at32 s j) v).High g S := by
    intro j v hj; exact in_store32 hw ht hS (by omega) (by omega) (by omega) (by omega)
  have hadd : ∀ j x, j < 8 → (hashAdd s j x).High g S := by
    intro j x hj; exact High.bind (hld j hj) fun _ => hst j _ hj
  have hpad : s + offPadding + 60 = at32 (s + offPadding) 15 := by unfold at32; rfl
  have hpad2 : (s + offPadding).toNat = s.toNat + 96 := add_off (by show s.toNat + 96 < _; omega)
  unfold extendHash
  refine High.bind (hld _ (by omega)) fun _ => High.bind (hld _ (by omega)) fun _ => High.bind (hld _ (by omega)) fun _ =>
    High.bind (hld _ (by omega)) fun _ => High.bind (hld _ (by omega)) fun _ => High.bind (hld _ (by omega)) fun _ =>
    High.bind (hld _ (by omega)) fun _ => High.bind (hld _ (by omega)) fun _ =>
    High.bind (in_hashRounds hw ht hS hs hb h1 h2 h3 h4 hhi _ _ _ (by omega)) fun _ =>
    High.bind (hadd _ _ (by omega)) fun _ => High.bind (hadd _ _ (by omega)) fun _ => High.bind (hadd _ _ (by omega)) fun _ =>
    High.bind (hadd _ _ (by omega)) fun _ => High.bind (hadd _ _ (by omega)) fun _ => High.bind (hadd _ _ (by omega)) fun _ =>
    High.bind (hadd _ _ (by omega)) fun _ => High.bind (hadd _ _ (by omega)) fun _ => ?_
  rw [hpad]
  exact High.bind (in_load32 hw ht hS (by omega) (by omega) (by omega) (by omega)) fun _ =>
    in_store32 hw ht hS (by omega) (by omega) (by omega) (by omega)

theorem in_bzeroWords : ∀ (n : Nat) (s : W), lo ≤ s.toNat → s.toNat + 8 * n ≤ hi → hi < 2 ^ 64 → (bzeroWords s n).High g S := by
  intro n
  induction n with
  | zero => intros; exact High.pure _
  | succ n ih =>
      intro s h1 h2 h3
      unfold bzeroWords
      refine High.bind (in_store hw ht hS h1 (by omega)) fun _ => ?_
      have e1 : (s + 8).toNat = s.toNat + 8 := add_off (by show s.toNat + 8 < _; omega)
      exact ih _ (by omega) (by omega) h3

theorem in_initHash {s : W} (hs : s.toNat % 8 = 0) (h1 : s.toNat + 160 ≤ hi) (h3 : lo ≤ s.toNat) (hhi : hi < 2 ^ 64) : (initHash s).High g S := by
  have hst : ∀ j v, j < 8 → (store32 (at32 s j) v).High g S := by
    intro j v hj; exact in_store32 hw ht hS (by omega) (by omega) (by omega) (by omega)
  have hpad : (s + offPadding).toNat = s.toNat + 96 := add_off (by show s.toNat + 96 < _; omega)
  unfold initHash
  refine High.bind (hst _ _ (by omega)) fun _ => High.bind (hst _ _ (by omega)) fun _ => High.bind (hst _ _ (by omega)) fun _ =>
    High.bind (hst _ _ (by omega)) fun _ => High.bind (hst _ _ (by omega)) fun _ => High.bind (hst _ _ (by omega)) fun _ =>
    High.bind (hst _ _ (by omega)) fun _ => High.bind (hst _ _ (by omega)) fun _ =>
    High.bind (in_bzeroWords hw ht hS _ _ (by omega) (by rw [hpad, show (64 : W).toNat = 64 from rfl]; omega) hhi) fun _ => ?_
  have h0 : s + offPadding = at32 (s + offPadding) 0 := by unfold at32; simp
  rw [h0]
  exact in_store32 hw ht hS (by omega) (by omega) (by omega) (by omega)

section
variable {e : W} (h8 : e.toNat % 8 = 0) (h1 : lo ≤ e.toNat) (h2 : e.toNat + 304 ≤ hi) (hhi : hi < 2 ^ 64)
include h8 h1 h2 hhi

theorem in_block {off v : W} (hl : off.toNat < 64) : (store (e + offHashBlock + off) v).High g S := by
  have q2 : (e + offHashBlock).toNat = e.toNat + 240 := add_off (by show e.toNat + 240 < _; omega)
  have : (e + offHashBlock + off).toNat = e.toNat + 240 + off.toNat := by rw [add_off (by rw [q2]; omega), q2]
  exact in_store hw ht hS (by omega) (by omega)

theorem in_extend_own : (extendHash (e + offHash) (e + offHashBlock)).High g S := by
  have q1 : (e + offHash).toNat = e.toNat + 80 := add_off (by show e.toNat + 80 < _; omega)
  have q2 : (e + offHashBlock).toNat = e.toNat + 240 := add_off (by show e.toNat + 240 < _; omega)
  exact in_extendHash hw ht hS (by omega) (by omega) (by omega) (by omega) (by omega) (by omega) hhi

theorem in_initEnclaveHash (b k n : W) (d : Bool) : (initEnclaveHash e b k n d).High g S := by
  have q1 : (e + offHash).toNat = e.toNat + 80 := add_off (by show e.toNat + 80 < _; omega)
  have q2 : (e + offHashBlock).toNat = e.toNat + 240 := add_off (by show e.toNat + 240 < _; omega)
  have hst : ∀ {off v : W}, off.toNat < 64 → (store (e + offHashBlock + off) v).High g S :=
    fun hl => in_block hw ht hS h8 h1 h2 hhi hl
  unfold initEnclaveHash
  refine High.bind (in_bzeroWords hw ht hS _ _ (by omega) (by rw [q2, show (64 : W).toNat = 64 from rfl]; omega) hhi) fun _ =>
    High.bind (in_initHash hw ht hS (by omega) (by omega) (by omega) hhi) fun _ =>
    High.bind (hst (by decide)) fun _ => High.bind (hst (by decide)) fun _ =>
    High.bind (hst (by decide)) fun _ => High.bind (hst (by decide)) fun _ =>
    High.bind (hst (by decide)) fun _ => High.bind (in_extend_own hw ht hS h8 h1 h2 hhi) fun _ =>
    High.bind (hst (by decide)) fun _ => High.bind (hst (by decide)) fun _ =>
    High.bind (hst (by decide)) fun _ => hst (by decide)

theorem in_initEnclaveInfo (b k n : W) (d : Bool) : (initEnclaveInfo e b k n d).High g S := by
  have hst : ∀ {off v : W}, off.toNat ≤ 296 → (store (e + off) v).High g S := by
    intro off v hl
    have : (e + off).toNat = e.toNat + off.toNat := add_off (by omega)
    exact in_store hw ht hS (by omega) (by omega)
  unfold initEnclaveInfo
  exact High.bind (hst (by decide)) fun _ => High.bind (hst (by decide)) fun _ =>
    High.bind (hst (by decide)) fun _ => High.bind (hst (by decide)) fun _ =>
    High.bind (hst (by decide)) fun _ => High.bind (hst (by decide)) fun _ =>
    High.bind (hst (by decide)) fun _ => High.bind (hst (by decide)) fun _ =>
    High.bind (hst (by decide)) fun _ => High.bind (hst (by decide)) fun _ =>
    in_initEnclaveHash hw ht hS h8 h1 h2 hhi b k n d
end

theorem in_pagesEmptyLoop : ∀ (n : Nat) (p : W), lo ≤ p.toNat → p.toNat + 8 * n ≤ hi → hi < 2 ^ 64 → (pagesEmptyLoop n p).High g S := by
  intro n
  induction n with
  | zero => intros; exact High.pure _
  | succ n ih =>
      intro p h1 h2 h3
      unfold pagesEmptyLoop
      refine High.bind (in_load hw ht hS h1 (by omega)) fun v => High.ite (fun _ => High.pure _) fun _ => ?_
      have e1 : (p + 8).toNat = p.toNat + 8 := add_off (by show p.toNat + 8 < _; omega)
      exact ih _ (by omega) (by omega) h3

theorem in_innerPagesLoop : ∀ (n : Nat) (p : W), lo ≤ p.toNat → p.toNat + 8 * n ≤ hi → hi < 2 ^ 64 → (innerPagesLoop n p).High g S := by
  intro n
  induction n with
  | zero => intros; exact High.pure _
  | succ n ih =>
      intro p h1 h2 h3
      unfold innerPagesLoop
      refine High.bind (in_store hw ht hS h1 (by omega)) fun v => ?_
      have e1 : (p + 8).toNat = p.toNat + 8 := add_off (by show p.toNat + 8 < _; omega)
      exact ih _ (by omega) (by omega) h3
end

/-- The copy loops of debug copies. -/
theorem in_copyWords : ∀ (n : Nat) (d s : W), d.toNat + 8 * n < 2 ^ 64 → s.toNat + 8 * n < 2 ^ 64 →
    (∀ x, d.toNat ≤ x → x < d.toNat + 8 * n → g.monitorTop.toNat ≤ x ∧ S x) → (∀ x, s.toNat ≤ x → x < s.toNat + 8 * n → g.monitorTop.toNat ≤ x ∧ S x) →
    (copyWords n d s).High g S := by
  intro n
  induction n with
  | zero => intros; exact High.pure _
  | succ n ih =>
      intro d s h1 h2 h3 h4
      unfold copyWords
      refine High.bind ⟨⟨fun x hx => ?_, fun hh => by cases hh⟩, fun _ => trivial⟩ fun v => High.bind ⟨⟨fun x hx => ?_, fun hh => by cases hh⟩, fun _ => trivial⟩ fun _ => ?_
      · have hx : s.toNat = x := hx
        exact h4 x (by omega) (by omega)
      · have hx : d.toNat = x := hx
        exact h3 x (by omega) (by omega)
      have e1 : (d + 8).toNat = d.toNat + 8 := add_off (by show d.toNat + 8 < _; omega)
      have e2 : (s + 8).toNat = s.toNat + 8 := add_off (by show s.toNat + 8 < _; omega)
      exact ih _ _ (by omega) (by omega) (fun x a1 a2 => h3 x (by omega) (by omega)) fun x a1 a2 => h4 x (by omega) (by omega)

/-- The words of region `r` above `lo`. -/
theorem regionOf_span (hw : g.WF) {r x : Nat} (hr : r < g.regions) (h1 : r * g.stripeSize.toNat ≤ x) (h2 : x < (r + 1) * g.stripeSize.toNat) :
    regionOf g x = r := by
  unfold regionOf
  rw [← hw.stripeSize]
  have hp : 0 < g.stripeSize.toNat := by have := hw.stripe_ge; omega
  have : x / g.stripeSize.toNat = r := by
    refine Nat.div_eq_of_lt_le ?_ ?_
    · exact h1
    · exact h2
  rw [this]
  unfold Cfg.regions at hr
  rw [hw.regionCount] at hr
  exact Nat.mod_eq_of_lt hr

end Sanctum
