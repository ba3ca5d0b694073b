import Verif.Spec.Pattern
import Verif.Model.Measure
import Verif.Model.Enclaves
import Verif.Spec.Toy
/-
C85: the access pattern of hashing, measuring, copying and wiping does not depend on the data.
-/
namespace Sanctum

/-- Two programs that do the same up to data, whatever responses they get. -/
def Prog.Alike {α β : Type} : Prog α → Prog β → Prop
  | .ret _, .ret _ => True
  | .op o k, .op o' k' => o.shape = o'.shape ∧ ∀ v v', (k v).Alike (k' v')
  | .fault, .fault => True
  | .diverge, .diverge => True
  | _, _ => False

theorem exec_shape1 {g : Cfg} {c : Nat} (o : Op) (m m' : Machine) : (exec g c o m).isSome = (exec g c o.shape m').isSome := by
  cases o <;> simp only [exec, Op.shape, Option.isSome_some]
  all_goals (split <;> simp only [Option.isSome_some, Option.isSome_none])

theorem exec_shape {g : Cfg} {c : Nat} {o o' : Op} (h : o.shape = o'.shape) (m m' : Machine) : (exec g c o m).isSome = (exec g c o' m').isSome := by
  rw [exec_shape1 o m m', h, ← exec_shape1 o' m' m']

theorem alike_pattern {α β : Type} {g : Cfg} {c : Nat} {p : Prog α} : ∀ {q : Prog β}, p.Alike q → ∀ m m', pattern g c p m = pattern g c q m' := by
  induction p with
  | ret a => intro q h m m'; cases q <;> first | rfl | exact h.elim
  | op o k ih =>
      intro q h m m'
      cases q with
      | op o' k' =>
          have e := exec_shape (g := g) (c := c) h.1 m m'
          simp only [pattern, h.1]
          cases h1 : exec g c o m with
          | none =>
              rw [h1] at e
              cases h2 : exec g c o' m' with
              | none => rfl
              | some _ => rw [h2] at e; cases e
          | some x =>
              rw [h1] at e
              cases h2 : exec g c o' m' with
              | none => rw [h2] at e; cases e
              | some y => simp only [List.cons.injEq, true_and]; exact ih _ (h.2 _ _) _ _
      | ret _ => exact h.elim
      | fault => exact h.elim
      | diverge => exact h.elim
  | fault => intro q h m m'; cases q <;> first | rfl | exact h.elim
  | diverge => intro q h m m'; cases q <;> first | rfl | exact h.elim

theorem alike_bind {α β γ δ : Type} {p : Prog α} {f : α → Prog γ} {h : β → Prog δ} : ∀ {q : Prog β}, p.Alike q → (∀ a b, (f a).Alike (h b)) → (p >>= f).Alike (q >>= h) := by
  show ∀ {q : Prog β}, p.Alike q → (∀ a b, (f a).Alike (h b)) → (p.bind f).Alike (q.bind h)
  induction p with
  | ret a => intro q e hf; cases q <;> first | exact hf _ _ | exact e.elim
  | op o k ih =>
      intro q e hf
      cases q with
      | op o' k' => exact ⟨e.1, fun v v' => ih v (e.2 v v') hf⟩
      | ret _ => exact e.elim
      | fault => exact e.elim
      | diverge => exact e.elim
  | fault => intro q e hf; cases q <;> first | trivial | exact e.elim
  | diverge => intro q e hf; cases q <;> first | trivial | exact e.elim

theorem alike_store (a v v' : W) : (store a v).Alike (store a v') := ⟨rfl, fun _ _ => trivial⟩
theorem alike_store32 (a : W) (v v' : W32) : (store32 a v).Alike (store32 a v') := ⟨rfl, fun _ _ => trivial⟩
theorem alike_load (a : W) : (load a).Alike (load a) := ⟨rfl, fun _ _ => trivial⟩
theorem alike_load32 (a : W) : (load32 a).Alike (load32 a) := ⟨rfl, fun _ _ => trivial⟩

theorem alike_bzeroWords : ∀ (n : Nat) (a : W), (bzeroWords a n).Alike (bzeroWords a n)
  | 0, _ => trivial
  | n + 1, _ => alike_bind (alike_store _ _ _) fun _ _ => alike_bzeroWords n _

theorem alike_copyWords : ∀ (n : Nat) (dst src : W), (copyWords n dst src).Alike (copyWords n dst src)
  | 0, _, _ => trivial
  | n + 1, _, _ => alike_bind (alike_load _) fun _ _ => alike_bind (alike_store _ _ _) fun _ _ => alike_copyWords n _ _

theorem alike_schedule (w b : W) (i : Nat) : (hashSchedule w b i).Alike (hashSchedule w b i) := by
  unfold hashSchedule
  split
  · exact alike_bind (alike_load32 _) fun _ _ => alike_bind (alike_store32 _ _ _) fun _ _ => alike_load32 _
  · exact alike_bind (alike_load32 _) fun _ _ => alike_bind (alike_load32 _) fun _ _ => alike_bind (alike_load32 _) fun _ _ => alike_bind (alike_load32 _) fun _ _ =>
      alike_bind (alike_store32 _ _ _) fun _ _ => alike_load32 _

theorem alike_rounds (w b : W) : ∀ (n i : Nat) (s s' : HashRegs), (hashRounds w b n i s).Alike (hashRounds w b n i s')
  | 0, _, _, _ => trivial
  | n + 1, _, _, _ => alike_bind (alike_schedule w b _) fun _ _ => alike_rounds w b n _ _ _

theorem alike_add (h : W) (i : Nat) (x x' : W32) : (hashAdd h i x).Alike (hashAdd h i x') := alike_bind (alike_load32 _) fun _ _ => alike_store32 _ _ _

theorem alike_extend (s b : W) : (extendHash s b).Alike (extendHash s b) := by
  unfold extendHash
  iterate 8 refine alike_bind (alike_load32 _) fun _ _ => ?_
  refine alike_bind (alike_rounds _ _ _ _ _ _) fun _ _ => ?_
  iterate 8 refine alike_bind (alike_add _ _ _ _) fun _ _ => ?_
  exact alike_bind (alike_load32 _) fun _ _ => alike_store32 _ _ _

theorem alike_init (s : W) : (initHash s).Alike (initHash s) := by
  unfold initHash
  iterate 8 refine alike_bind (alike_store32 _ _ _) fun _ _ => ?_
  exact alike_bind (alike_bzeroWords _ _) fun _ _ => alike_store32 _ _ _

theorem alike_pageLoop (e : W) : ∀ (n : Nat) (a : W), (extendHashPageLoop e n a).Alike (extendHashPageLoop e n a)
  | 0, _ => trivial
  | n + 1, _ => alike_bind (alike_extend _ _) fun _ _ => alike_pageLoop e n _

/-- C85. Whatever memory contains, the same locations are accessed in the same order, in the same way: by the three hash functions; by every operation that adds to an
enclave's measurement, which is moreover the same whatever is measured (`x` and `x'` stand for two sets of measured arguments); by the copy of a page and the wiping of memory. -/
theorem C85_data_oblivious (g : Cfg) :
    (∀ s, DataOblivious g (initHash s)) ∧ (∀ s b, DataOblivious g (extendHash s b)) ∧ (∀ s, DataOblivious g (finalizeHash s)) ∧
    (∀ c m m' e (x1 x2 x3 y1 y2 y3 : W) (d d' : Bool), pattern g c (initEnclaveHash e x1 x2 x3 d) m = pattern g c (initEnclaveHash e y1 y2 y3 d') m') ∧
    (∀ c m m' e (x1 x2 x3 y1 y2 y3 : W), pattern g c (extendHashWithPageTable e x1 x2 x3) m = pattern g c (extendHashWithPageTable e y1 y2 y3) m') ∧
    (∀ c m m' e (x1 x2 y1 y2 phys : W), pattern g c (extendHashWithPage e x1 x2 phys) m = pattern g c (extendHashWithPage e y1 y2 phys) m') ∧
    (∀ c m m' e (x1 x2 x3 x4 y1 y2 y3 y4 : W), pattern g c (extendHashWithThread e x1 x2 x3 x4) m = pattern g c (extendHashWithThread e y1 y2 y3 y4) m') ∧
    (∀ e, DataOblivious g (finalizeEnclaveHash e)) ∧
    (∀ n dst src, DataOblivious g (copyWords n dst src)) ∧ (∀ a n, DataOblivious g (bzero a n)) := by
  refine ⟨fun s c m m' => alike_pattern (alike_init s) m m', fun s b c m m' => alike_pattern (alike_extend s b) m m', fun s c m m' => alike_pattern (alike_extend s _) m m',
    fun c m m' e x1 x2 x3 y1 y2 y3 d d' => alike_pattern ?_ m m', fun c m m' e x1 x2 x3 y1 y2 y3 => alike_pattern ?_ m m', fun c m m' e x1 x2 y1 y2 phys => alike_pattern ?_ m m',
    fun c m m' e x1 x2 x3 x4 y1 y2 y3 y4 => alike_pattern ?_ m m', fun e c m m' => alike_pattern ?_ m m', fun n d s c m m' => alike_pattern (alike_copyWords n d s) m m',
    fun a n c m m' => alike_pattern (alike_bzeroWords _ a) m m'⟩
  · unfold initEnclaveHash
    refine alike_bind (alike_bzeroWords _ _) fun _ _ => alike_bind (alike_init _) fun _ _ => ?_
    iterate 5 refine alike_bind (alike_store _ _ _) fun _ _ => ?_
    refine alike_bind (alike_extend _ _) fun _ _ => ?_
    iterate 3 refine alike_bind (alike_store _ _ _) fun _ _ => ?_
    exact alike_store _ _ _
  · unfold extendHashWithPageTable
    iterate 4 refine alike_bind (alike_store _ _ _) fun _ _ => ?_
    refine alike_bind (alike_extend _ _) fun _ _ => ?_
    iterate 2 refine alike_bind (alike_store _ _ _) fun _ _ => ?_
    exact alike_store _ _ _
  · unfold extendHashWithPage
    iterate 3 refine alike_bind (alike_store _ _ _) fun _ _ => ?_
    refine alike_bind (alike_extend _ _) fun _ _ => ?_
    iterate 2 refine alike_bind (alike_store _ _ _) fun _ _ => ?_
    exact alike_pageLoop _ _ _
  · unfold extendHashWithThread
    iterate 5 refine alike_bind (alike_store _ _ _) fun _ _ => ?_
    refine alike_bind (alike_extend _ _) fun _ _ => ?_
    iterate 3 refine alike_bind (alike_store _ _ _) fun _ _ => ?_
    exact alike_store _ _ _
  · unfold finalizeEnclaveHash
    exact alike_bind (alike_store _ _ _) fun _ _ => alike_bind (alike_extend _ _) fun _ _ => alike_extend _ _

set_option maxRecDepth 100000 in
/-- A pattern that is not trivial: a hash step on the toy machine has 362 actions. -/
example : (pattern toyG 0 (extendHash 0x10000 0x11000) toyM).length = 362 := by decide +kernel

/-- And code whose pattern does depend on data is not called oblivious: following a pointer. -/
example : ¬ DataOblivious toyG (do let v ← load 0x10000; store v 0) := by
  intro h
  have e := h 0 zeroMachine { zeroMachine with mem := fun _ => 8 }
  have e := congrArg (fun l => match l with | [_, .store a _] => a | _ => 1) e
  revert e
  set_option maxRecDepth 100000 in decide +kernel

end Sanctum
