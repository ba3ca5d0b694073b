import Verif.Spec.Conc
import Verif.Lemmas.Touches
import Verif.Props.Frame
/-
A rely-guarantee logic for the monitor's programs, and its soundness for interleavings.
-/
namespace Sanctum
open Machine

variable {g : Cfg} {c : Nat} {α β : Type}

/-- The global invariant. -/
structure CInv (g : Cfg) (m : Machine) : Prop extends RegionsOk g m where
  locks : LockWords g m
  os : ∀ c, c < g.cores → m.running c = nullEnclaveId

/-- What the environment keeps for a core that holds the locks in `H`. -/
structure Agree (g : Cfg) (H : Nat → Prop) (m m' : Machine) : Prop where
  record : ∀ i, i < g.regions → H i → (∀ x, RecordWord g i x → m'.mem x = m.mem x) ∧ m'.osBit g i = m.osBit g i
  map : H 0 → (∀ i, i < g.regions → m'.mem (osWordA g i) = m.mem (osWordA g i)) ∧ m'.dmaStart = m.dmaStart ∧ m'.dmaEnd = m.dmaEnd

/-- The locks in `H` are set. -/
def HeldOk (g : Cfg) (H : Nat → Prop) (m : Machine) : Prop := ∀ i, i < g.regions → H i → m.mem (lockA g i) = 1

/-- What a core that holds `H` guarantees of a step from `m` to `m1` after which it holds `H1`. -/
structure Guar (g : Cfg) (H : Nat → Prop) (m : Machine) (H1 : Nat → Prop) (m1 : Machine) : Prop where
  lock : ∀ i, i < g.regions → (H1 i ∧ m1.mem (lockA g i) = 1) ∨ (¬ H1 i ∧ H i ∧ m1.mem (lockA g i) = 0) ∨
    (¬ H1 i ∧ ¬ H i ∧ m1.mem (lockA g i) = m.mem (lockA g i))
  record : ∀ i, i < g.regions → ¬ H i → (∀ x, RecordWord g i x → m1.mem x = m.mem x) ∧ m1.osBit g i = m.osBit g i
  map : ¬ H 0 → (∀ i, i < g.regions → m1.mem (osWordA g i) = m.mem (osWordA g i)) ∧ m1.dmaStart = m.dmaStart ∧ m1.dmaEnd = m.dmaEnd
  inv : CInv g m1
  legal : Legal g m m1

/-- The access discipline. -/
def OpOk (g : Cfg) (D : Prop) (H : Nat → Prop) (o : Op) : Prop :=
  (D → ∀ i x, i < g.regions → RecordWord g i x → o.accesses g x → H i) ∧ ∀ i, i < g.regions → o.overwrites (lockA g i) → H i

/-- The program, run on core `c` holding `H` (and, if `D`, keeping to the access discipline), never faults, meets the guarantee at every step, and ends
with `Q`; in the environment described by `Agree`, starting after machine state `m`. -/
def Safe (g : Cfg) (D : Prop) (c : Nat) (Q : α → (Nat → Prop) → Machine → Prop) : (Nat → Prop) → Machine → Prog α → Prop
  | H, m, .ret a => Q a H m
  | H, m, .op o k => ∀ m', Agree g H m m' → CInv g m' → HeldOk g H m' →
      ∃ v m1, exec g c o m' = some (v, m1) ∧ OpOk g D H o ∧ Guar g H m' (heldStep g o v H) m1 ∧ Safe g D c Q (heldStep g o v H) m1 (k v)
  | _, _, .fault => False
  | _, _, .diverge => False

variable {D : Prop} {H : Nat → Prop} {m : Machine}

theorem Agree.refl (H : Nat → Prop) (m : Machine) : Agree g H m m := ⟨fun _ _ _ => ⟨fun _ _ => rfl, rfl⟩, fun _ => ⟨fun _ _ => rfl, rfl, rfl⟩⟩

theorem Agree.trans {m m1 m2 : Machine} (h1 : Agree g H m m1) (h2 : Agree g H m1 m2) : Agree g H m m2 :=
  ⟨fun i hi hh => ⟨fun x hx => ((h2.record i hi hh).1 x hx).trans ((h1.record i hi hh).1 x hx), (h2.record i hi hh).2.trans (h1.record i hi hh).2⟩,
   fun hh => ⟨fun i hi => ((h2.map hh).1 i hi).trans ((h1.map hh).1 i hi), (h2.map hh).2.1.trans (h1.map hh).2.1, (h2.map hh).2.2.trans (h1.map hh).2.2⟩⟩

theorem Agree.mono {H' : Nat → Prop} {m m1 : Machine} (hs : ∀ i, H' i → H i) (h1 : Agree g H m m1) : Agree g H' m m1 :=
  ⟨fun i hi hh => h1.record i hi (hs i hh), fun hh => h1.map (hs 0 hh)⟩

theorem Agree.owner {m m1 : Machine} (h1 : Agree g H m m1) {i : Nat} (hi : i < g.regions) (hh : H i) : m1.owner g i = m.owner g i :=
  (h1.record i hi hh).1 _ (Or.inl rfl)

theorem Agree.bit {m m1 : Machine} (h1 : Agree g H m m1) {i : Nat} (hi : i < g.regions) (hh : H i) : m1.osBit g i = m.osBit g i :=
  (h1.record i hi hh).2

theorem Safe.bind {Q1 : α → (Nat → Prop) → Machine → Prop} {Q : β → (Nat → Prop) → Machine → Prop} {p : Prog α} {f : α → Prog β}
    (hp : Safe g D c Q1 H m p) (hf : ∀ a H' m', Q1 a H' m' → Safe g D c Q H' m' (f a)) : Safe g D c Q H m (p >>= f) := by
  show Safe g D c Q H m (p.bind f)
  induction p generalizing H m with
  | ret a => exact hf a H m hp
  | op o k ih =>
      intro m' h1 h2 h3
      obtain ⟨v, m1, q1, q2, q3, q4⟩ := hp m' h1 h2 h3
      exact ⟨v, m1, q1, q2, q3, ih v q4⟩
  | fault => exact hp
  | diverge => exact hp

theorem Safe.mono {Q1 Q : α → (Nat → Prop) → Machine → Prop} {p : Prog α} (hp : Safe g D c Q1 H m p) (hf : ∀ a H' m', Q1 a H' m' → Q a H' m') :
    Safe g D c Q H m p := by
  induction p generalizing H m with
  | ret a => exact hf a H m hp
  | op o k ih =>
      intro m' h1 h2 h3
      obtain ⟨v, m1, q1, q2, q3, q4⟩ := hp m' h1 h2 h3
      exact ⟨v, m1, q1, q2, q3, ih v q4⟩
  | fault => exact hp
  | diverge => exact hp

theorem Safe.pure {Q : α → (Nat → Prop) → Machine → Prop} {a : α} (h : Q a H m) : Safe g D c Q H m (pure a) := h

theorem Safe.ite {Q : α → (Nat → Prop) → Machine → Prop} {b : Prop} [Decidable b] {p q : Prog α} (hp : b → Safe g D c Q H m p)
    (hq : ¬ b → Safe g D c Q H m q) : Safe g D c Q H m (if b then p else q) := by
  split
  · exact hp ‹_›
  · exact hq ‹_›

/-! ### Soundness -/

theorem holds_snoc (t : List Label) (l : Label) (c : Nat) : holds g (t ++ [l]) c = heldLabel g c (holds g t c) l := by
  unfold holds; rw [List.foldl_append]; rfl

theorem heldLabel_act_self (o : Op) (v : W) (H : Nat → Prop) : heldLabel g c H (.act c o v) = heldStep g o v H := if_pos rfl
theorem heldLabel_act_other {c' : Nat} (hc : c' ≠ c) (o : Op) (v : W) (H : Nat → Prop) : heldLabel g c H (.act c' o v) = H := if_neg hc
theorem heldLabel_done_self (k : Call) (v : W) (H : Nat → Prop) : heldLabel g c H (.done c k v) = fun _ => False := if_pos rfl
theorem heldLabel_done_other {c' : Nat} (hc : c' ≠ c) (k : Call) (v : W) (H : Nat → Prop) : heldLabel g c H (.done c' k v) = H := if_neg hc

theorem heldStep_cases (o : Op) (v : W) (H : Nat → Prop) (i : Nat) (hh : heldStep g o v H i) :
    H i ∨ (i < g.regions ∧ v = 0 ∧ ∃ a, o = .tas a ∧ a.toNat = lockA g i) := by
  cases o <;> simp only [heldStep] at hh
  case tas a => exact hh.imp id (fun hh => ⟨hh.1, hh.2.1, a, rfl, hh.2.2⟩)
  case store a w => exact Or.inl hh.1
  all_goals exact Or.inl hh

end Sanctum
