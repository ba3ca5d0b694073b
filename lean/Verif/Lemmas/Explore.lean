import Verif.Spec.Serial
import Verif.Lemmas.Basic
/-
A complete search of the serial machine: all states it can be in after software saw a given history. Used to show that a history is impossible on that machine.
-/
namespace Sanctum
open Machine
variable {g : Cfg}

/-- Runs of the serial machine in which a flush, too, takes a single step. -/
inductive OneStepRun (g : Cfg) : SerialState → List Seen → SerialState → Prop
  | refl (s : SerialState) : OneStepRun g s [] s
  | tail {s s' s'' : SerialState} {h : List Seen} {h' : List Label} : OneStepRun g s h s' → SerialStep g s' h' s'' → (∀ c w, s''.phase c ≠ .flushing w) →
      OneStepRun g s (h ++ h'.map .call) s''
  | load {s s' : SerialState} {h : List Seen} (a : Nat) : OneStepRun g s h s' → OneStepRun g s (h ++ [.load a (s'.m.mem a)]) s'
  | store {s s' : SerialState} {h : List Seen} (a : Nat) (v : W) : OneStepRun g s h s' → OneStepRun g s (h ++ [.store a v]) { s' with m := s'.m.put a v }

/-- A state of the serial machine, as data: the phases of the cores and the machine. -/
abbrev Node := List SPhase × Machine

def Node.state (x : Node) : SerialState := ⟨fun c => x.1.getD c .idle, x.2⟩

/-- The answer of a call that is turned away. -/
def awayAnswer : Call → Option W
  | .dramRegionState _ => some stateLocked
  | .dramRegionOwner _ => some nullEnclaveId
  | .blockDramRegion _ | .dramRegionCheckOwnership _ | .setDmaRange _ _ | .assignDramRegion _ _ | .freeDramRegion _ | .createMetadataRegion _
  | .createEnclave _ _ _ _ _ | .loadPageTable _ _ _ _ _ | .loadPage _ _ _ _ _ | .initEnclave _ | .enterEnclave _ _ | .deleteEnclave _ => some monitorConcurrentCall
  | _ => none

theorem awayAnswer_of {k : Call} {v : W} (h : TurnedAway k v) : awayAnswer k = some v := by
  cases k <;> first | exact h.elim | (cases h; rfl)

def SPhase.isIdle : SPhase → Bool
  | .idle => true
  | _ => false

/-- The steps core `c` can make in phase `p` that software does not see. `two`: a flush may take two steps. -/
def hiddenOf (two : Bool) (g : Cfg) (x : Node) (c : Nat) : SPhase → List Node
  | .pending k =>
      (match call g c k x.2 with
        | some (v, m') => [(x.1.set c (.decided k v), m')]
        | none => []) ++
      (match awayAnswer k with
        | some v => if (x.1.set c .idle).all SPhase.isIdle then [] else [(x.1.set c (.decided k v), x.2)]
        | none => []) ++
      (if two ∧ k = .flushCachedDramRegions then [(x.1.set c (.flushing (x.2.clock g)), x.2.flushTlb c)] else [])
  | .flushing w => [(x.1.set c (.decided .flushCachedDramRegions monitorOk), x.2.record c w)]
  | _ => []

def hidden (two : Bool) (g : Cfg) (x : Node) : List Node := (List.range x.1.length).flatMap fun c => hiddenOf two g x c (x.1.getD c .idle)

/-- `x` and what it can reach in at most `n` hidden steps. -/
def clo (two : Bool) (g : Cfg) : Nat → Node → List Node
  | 0, x => [x]
  | n + 1, x => x :: (hidden two g x).flatMap (clo two g n)

/-- What software does next. -/
def vis (x : Node) : Seen → List Node
  | .call (.start c k) => if c < x.1.length ∧ (x.1.getD c .idle).isIdle then [(x.1.set c (.pending k), x.2)] else []
  | .call (.done c k v) => match x.1.getD c .idle with
      | .decided k' v' => if k' = k ∧ v' = v then [(x.1.set c .idle, x.2)] else []
      | _ => []
  | .call _ => []
  | .load a v => if x.2.mem a = v then [x] else []
  | .store a v => [(x.1, x.2.put a v)]

/-- All states after a history. -/
def explore (two : Bool) (g : Cfg) (S : List Node) (h : List Seen) : List Node :=
  h.foldl (fun S e => S.flatMap fun x => (vis x e).flatMap (clo two g (2 * g.cores))) S

def SPhase.wt : SPhase → Nat
  | .pending _ => 2
  | .flushing _ => 1
  | _ => 0

def Node.wt (x : Node) : Nat := (x.1.map SPhase.wt).sum

theorem getD_set (l : List SPhase) (c : Nat) (a : SPhase) (hc : c < l.length) (c' : Nat) : (l.set c a).getD c' .idle = upd (fun c => l.getD c .idle) c a c' := by
  unfold upd
  rw [List.getD_eq_getElem?_getD, List.getElem?_set]
  split
  · rename_i h; subst h; rw [if_pos rfl]; rfl
  · rename_i h; rw [if_neg (fun hh => h hh.symm)]; exact (List.getD_eq_getElem?_getD ..).symm

theorem sum_set_lt : ∀ (l : List SPhase) (c : Nat) (a : SPhase), c < l.length → a.wt < (l.getD c .idle).wt → ((l.set c a).map SPhase.wt).sum < (l.map SPhase.wt).sum
  | [], c, a, h, _ => absurd h (Nat.not_lt_zero _)
  | b :: l, 0, a, _, h => by
      simp only [List.getD_cons_zero] at h
      simp only [List.set_cons_zero, List.map_cons, List.sum_cons]
      omega
  | b :: l, c + 1, a, h, h2 => by
      simp only [List.getD_cons_succ] at h2
      have := sum_set_lt l c a (Nat.lt_of_succ_lt_succ h) h2
      simp only [List.set_cons_succ, List.map_cons, List.sum_cons]
      omega

theorem wt_le (x : Node) : x.wt ≤ 2 * x.1.length := by
  unfold Node.wt
  induction x.1 with
  | nil => exact Nat.le_refl _
  | cons a l ih =>
      have : a.wt ≤ 2 := by cases a <;> simp [SPhase.wt]
      simp only [List.map_cons, List.sum_cons, List.length_cons]
      omega

theorem hidden_wt {two : Bool} {x y : Node} (h : y ∈ hidden two g x) : y.wt < x.wt ∧ y.1.length = x.1.length := by
  obtain ⟨c, hc, h⟩ := List.mem_flatMap.1 h
  have hc := List.mem_range.1 hc
  have key : ∀ (a : SPhase) (m : Machine), a.wt < (x.1.getD c .idle).wt → Node.wt (x.1.set c a, m) < x.wt ∧ (x.1.set c a).length = x.1.length := fun a m ha =>
    ⟨sum_set_lt _ _ _ hc ha, List.length_set ..⟩
  generalize hp : x.1.getD c .idle = p at h key
  cases p with
  | idle => cases h
  | decided _ _ => cases h
  | flushing w =>
      rcases List.mem_singleton.1 h with rfl
      exact key _ _ (Nat.succ_pos _)
  | pending k =>
      rcases List.mem_append.1 h with h | h
      · rcases List.mem_append.1 h with h | h
        · split at h
          · rcases List.mem_singleton.1 h with rfl; exact key _ _ (Nat.succ_pos _)
          · cases h
        · split at h
          · split at h
            · cases h
            · rcases List.mem_singleton.1 h with rfl; exact key _ _ (Nat.succ_pos _)
          · cases h
      · split at h
        · rcases List.mem_singleton.1 h with rfl; exact key _ _ (Nat.lt_succ_self _)
        · cases h

theorem clo_self (two : Bool) (n : Nat) (x : Node) : x ∈ clo two g n x := by
  cases n <;> exact List.mem_cons_self

theorem clo_closed {two : Bool} : ∀ (n : Nat) {x y z : Node}, x.wt ≤ n → y ∈ clo two g n x → z ∈ hidden two g y → z ∈ clo two g n x
  | 0, x, y, z, hn, hy, hz => by
      rcases List.mem_singleton.1 hy with rfl
      have := (hidden_wt hz).1
      omega
  | n + 1, x, y, z, hn, hy, hz => by
      rcases List.mem_cons.1 hy with rfl | hy
      · exact List.mem_cons_of_mem _ (List.mem_flatMap.2 ⟨z, hz, clo_self _ _ _⟩)
      · obtain ⟨w, h1, h2⟩ := List.mem_flatMap.1 hy
        have := (hidden_wt h1).1
        exact List.mem_cons_of_mem _ (List.mem_flatMap.2 ⟨w, h1, clo_closed n (by omega) h2 hz⟩)

theorem clo_length {two : Bool} : ∀ (n : Nat) {x y : Node}, y ∈ clo two g n x → y.1.length = x.1.length
  | 0, x, y, hy => by rcases List.mem_singleton.1 hy with rfl; rfl
  | n + 1, x, y, hy => by
      rcases List.mem_cons.1 hy with rfl | hy
      · rfl
      · obtain ⟨w, h1, h2⟩ := List.mem_flatMap.1 hy
        rw [clo_length n h2, (hidden_wt h1).2]

theorem vis_length {x y : Node} {e : Seen} (h : y ∈ vis x e) : y.1.length = x.1.length := by
  unfold vis at h
  split at h
  · split at h
    · rcases List.mem_singleton.1 h with rfl; exact List.length_set ..
    · cases h
  · split at h
    · split at h
      · rcases List.mem_singleton.1 h with rfl; exact List.length_set ..
      · cases h
    · cases h
  · cases h
  · split at h
    · rcases List.mem_singleton.1 h with rfl; rfl
    · cases h
  · rcases List.mem_singleton.1 h with rfl; rfl

theorem explore_snoc (two : Bool) (S : List Node) (h : List Seen) (e : Seen) : explore two g S (h ++ [e]) =
    (explore two g S h).flatMap fun x => (vis x e).flatMap (clo two g (2 * g.cores)) := by
  unfold explore
  rw [List.foldl_append]
  rfl

theorem explore_length {two : Bool} {n : Nat} (h : List Seen) : ∀ {S : List Node}, (∀ x ∈ S, x.1.length = n) → ∀ x ∈ explore two g S h, x.1.length = n := by
  induction h with
  | nil => intro S hS; exact hS
  | cons e h ih =>
      intro S hS
      refine ih (S := S.flatMap fun x => (vis x e).flatMap (clo two g (2 * g.cores))) fun x hx => ?_
      obtain ⟨y, h1, hx⟩ := List.mem_flatMap.1 hx
      obtain ⟨z, h2, h3⟩ := List.mem_flatMap.1 hx
      rw [clo_length _ h3, vis_length h2, hS _ h1]

/-- The search starts with all cores idle. -/
def startNode (g : Cfg) (m : Machine) : Node := (List.replicate g.cores .idle, m)

theorem startNode_state (m : Machine) : (startNode g m).state = ⟨fun _ => .idle, m⟩ := by
  unfold Node.state startNode
  congr 1
  funext c
  rw [List.getD_eq_getElem?_getD, List.getElem?_replicate]
  split <;> rfl

theorem explore_ok (two : Bool) (m : Machine) (h : List Seen) : ∀ x ∈ explore two g [startNode g m] h,
    x.1.length = g.cores ∧ ∀ y ∈ hidden two g x, y ∈ explore two g [startNode g m] h := by
  rcases List.eq_nil_or_concat h with rfl | ⟨h, e, rfl⟩
  · intro x hx
    rcases List.mem_singleton.1 hx with rfl
    refine ⟨List.length_replicate, fun y hy => ?_⟩
    have := (hidden_wt hy).1
    have h0 : (startNode g m).wt = 0 := by
      unfold Node.wt startNode
      rw [List.map_replicate]
      show (List.replicate g.cores 0).sum = 0
      rw [List.sum_replicate_nat, Nat.mul_zero]
    omega
  · rw [List.concat_eq_append, explore_snoc]
    intro x hx
    obtain ⟨y, h1, hx⟩ := List.mem_flatMap.1 hx
    obtain ⟨z, h2, h3⟩ := List.mem_flatMap.1 hx
    have hy : y.1.length = g.cores := explore_length h (fun x hx => by rcases List.mem_singleton.1 hx with rfl; exact List.length_replicate) _ h1
    have hz : z.1.length = g.cores := by rw [vis_length h2, hy]
    refine ⟨by rw [clo_length _ h3, hz], fun w hw => List.mem_flatMap.2 ⟨y, h1, List.mem_flatMap.2 ⟨z, h2, clo_closed _ ?_ h3 hw⟩⟩⟩
    have := wt_le z
    rw [hz] at this
    exact this

theorem state_set {x : Node} {c : Nat} {a : SPhase} {m : Machine} (hc : c < x.1.length) : Node.state (x.1.set c a, m) = ⟨upd x.state.phase c a, m⟩ := by
  unfold Node.state
  congr 1
  funext c'
  exact getD_set _ _ _ hc c'

theorem phase_lt {x : Node} {c : Nat} (h : x.state.phase c ≠ .idle) : c < x.1.length := by
  rcases Nat.lt_or_ge c x.1.length with h1 | h1
  · exact h1
  · refine absurd ?_ h
    show x.1.getD c .idle = .idle
    rw [List.getD_eq_getElem?_getD, List.getElem?_eq_none h1]
    rfl

/-- Every step of the serial machine is in the search. -/
theorem step_found {two : Bool} {x : Node} {h : List Label} {s : SerialState} (hx : x.1.length = g.cores) (hs : SerialStep g x.state h s)
    (htwo : two = false → ∀ c w, s.phase c ≠ .flushing w) : ∃ y, y.state = s ∧ ((h = [] ∧ y ∈ hidden two g x) ∨ ∃ l, h = [l] ∧ y ∈ vis x (.call l)) := by
  have hid : ∀ {c : Nat} {a : SPhase} {m : Machine}, x.state.phase c ≠ .idle → (x.1.set c a, m) ∈ hiddenOf two g x c (x.state.phase c) →
      ∃ y, y.state = ⟨upd x.state.phase c a, m⟩ ∧ (([] : List Label) = [] ∧ y ∈ hidden two g x ∨ ∃ l, ([] : List Label) = [l] ∧ y ∈ vis x (.call l)) := by
    intro c a m h1 h2
    have h3 := phase_lt h1
    exact ⟨_, state_set h3, Or.inl ⟨rfl, List.mem_flatMap.2 ⟨c, List.mem_range.2 h3, h2⟩⟩⟩
  cases hs with
  | @start c k h1 h2 =>
      refine ⟨_, state_set (by rw [hx]; exact h1), Or.inr ⟨_, rfl, ?_⟩⟩
      show _ ∈ (if _ then _ else _)
      rw [if_pos]
      · exact List.mem_singleton_self _
      · refine ⟨by rw [hx]; exact h1, ?_⟩
        show (x.state.phase c).isIdle = true
        rw [h2]; rfl
  | @effect c k v m' h1 h2 =>
      refine hid (by rw [h1]; exact SPhase.noConfusion) ?_
      rw [h1]
      refine List.mem_append_left _ (List.mem_append_left _ ?_)
      rw [show call g c k x.2 = _ from h2]
      exact List.mem_singleton_self _
  | @busy c c' k v h1 h2 h3 h4 =>
      refine hid (m := x.2) (by rw [h1]; exact SPhase.noConfusion) ?_
      rw [h1]
      refine List.mem_append_left _ (List.mem_append_right _ ?_)
      rw [awayAnswer_of h4]
      show _ ∈ (if _ then _ else _)
      rw [if_neg]
      · exact List.mem_singleton_self _
      · intro hall
        have hl := phase_lt h3
        have hl1 : c < x.1.length := phase_lt (by rw [h1]; exact SPhase.noConfusion)
        have h5 : (x.1.set c .idle).getD c' .idle = x.state.phase c' := by
          rw [getD_set _ _ _ hl1]
          exact upd_ne _ _ h2
        have hl2 : c' < (x.1.set c .idle).length := by rw [List.length_set]; exact hl
        have h6 := List.all_eq_true.1 hall _ (List.getElem_mem hl2)
        rw [List.getD_eq_getElem?_getD, List.getElem?_eq_getElem hl2] at h5
        rw [show (x.1.set c .idle)[c'] = x.state.phase c' from h5] at h6
        generalize x.state.phase c' = p at h6 h3
        cases p with
        | idle => exact h3 rfl
        | _ => cases h6
  | @sample c h1 =>
      refine hid (by rw [h1]; exact SPhase.noConfusion) ?_
      rw [h1]
      refine List.mem_append_right _ ?_
      rw [if_pos]
      · exact List.mem_singleton_self _
      · refine ⟨?_, rfl⟩
        cases two with
        | true => rfl
        | false => exact absurd (show upd _ c _ c = _ from upd_same ..) (htwo rfl c (x.2.clock g))
  | @record c w h1 =>
      refine hid (by rw [h1]; exact SPhase.noConfusion) ?_
      rw [h1]
      exact List.mem_singleton_self _
  | @done c k v h1 =>
      refine ⟨_, state_set (phase_lt (by rw [h1]; exact SPhase.noConfusion)), Or.inr ⟨_, rfl, ?_⟩⟩
      show _ ∈ (match x.state.phase c with
        | .decided k' v' => if k' = k ∧ v' = v then [(x.1.set c .idle, x.2)] else []
        | _ => [])
      rw [h1]
      show _ ∈ (if _ then _ else _)
      rw [if_pos ⟨rfl, rfl⟩]
      exact List.mem_singleton_self _

theorem explore_next {two : Bool} {m : Machine} {h : List Seen} {e : Seen} {x y : Node} (hx : x ∈ explore two g [startNode g m] h) (hy : y ∈ vis x e) :
    y ∈ explore two g [startNode g m] (h ++ [e]) := by
  rw [explore_snoc]
  exact List.mem_flatMap.2 ⟨x, hx, List.mem_flatMap.2 ⟨y, hy, clo_self _ _ _⟩⟩

theorem explore_tail {two : Bool} {m : Machine} {h : List Seen} {h' : List Label} {x : Node} {s : SerialState} (hx : x ∈ explore two g [startNode g m] h)
    (hs : SerialStep g x.state h' s) (htwo : two = false → ∀ c w, s.phase c ≠ .flushing w) :
    ∃ y ∈ explore two g [startNode g m] (h ++ h'.map .call), y.state = s := by
  obtain ⟨h1, h2⟩ := explore_ok two m h x hx
  obtain ⟨y, hy, ⟨rfl, h3⟩ | ⟨l, rfl, h3⟩⟩ := step_found h1 hs htwo
  · rw [List.map_nil, List.append_nil]; exact ⟨y, h2 y h3, hy⟩
  · exact ⟨y, explore_next hx h3, hy⟩

/-- The search is complete. -/
theorem explore_complete {m : Machine} {h : List Seen} {s : SerialState} (hr : SerialRun g ⟨fun _ => .idle, m⟩ h s) :
    ∃ x ∈ explore true g [startNode g m] h, x.state = s := by
  induction hr with
  | refl => exact ⟨_, List.mem_singleton_self _, startNode_state m⟩
  | tail _ hs ih =>
      obtain ⟨x, hx, hh⟩ := ih
      rw [← hh] at hs
      exact explore_tail hx hs (fun h => by cases h)
  | @load s' h a _ ih =>
      obtain ⟨x, hx, rfl⟩ := ih
      exact ⟨x, explore_next hx (by show x ∈ (if x.2.mem a = x.2.mem a then _ else _); rw [if_pos rfl]; exact List.mem_singleton_self _), rfl⟩
  | @store s' h a v _ ih =>
      obtain ⟨x, hx, rfl⟩ := ih
      exact ⟨_, explore_next hx (List.mem_singleton_self _), rfl⟩

/-- The search of one-step runs is complete. -/
theorem explore_complete1 {m : Machine} {h : List Seen} {s : SerialState} (hr : OneStepRun g ⟨fun _ => .idle, m⟩ h s) :
    ∃ x ∈ explore false g [startNode g m] h, x.state = s := by
  induction hr with
  | refl => exact ⟨_, List.mem_singleton_self _, startNode_state m⟩
  | tail _ hs hn ih =>
      obtain ⟨x, hx, hh⟩ := ih
      rw [← hh] at hs
      exact explore_tail hx hs (fun _ => hn)
  | @load s' h a _ ih =>
      obtain ⟨x, hx, rfl⟩ := ih
      exact ⟨x, explore_next hx (by show x ∈ (if x.2.mem a = x.2.mem a then _ else _); rw [if_pos rfl]; exact List.mem_singleton_self _), rfl⟩
  | @store s' h a v _ ih =>
      obtain ⟨x, hx, rfl⟩ := ih
      exact ⟨_, explore_next hx (List.mem_singleton_self _), rfl⟩

end Sanctum
