import Verif.Versus.Sure

/-!
# The numbers taken by the network player

The batched search takes one number for the noise and the dice of every new node; the number of nodes added for a game in
one iteration is bounded by the number of legal moves.
-/

namespace DieE.Versus
open DieE.Mcts DieE.Props.A

variable {G : Game} {Fl : Floats}

/-- `Cost`, and a property of the result. -/
def CostTo {α : Type} (c : Nat) (P : α → Prop) (m : M α) : Prop := ∀ t a t', m t = .ok (a, t') → P a ∧ ∃ k ≤ c, t' = skipTape k t

theorem CostTo.cost {α : Type} {c : Nat} {P : α → Prop} {m : M α} (h : CostTo c P m) : Cost c m := fun t a t' e => (h t a t' e).2

theorem costTo_pure {α : Type} {P : α → Prop} {a : α} (h : P a) (c : Nat) : CostTo c P (pure a : M α) := by
  intro t b t' e
  obtain ⟨rfl, rfl⟩ := Prod.mk.inj (Except.ok.inj e)
  exact ⟨h, 0, Nat.zero_le _, (skipTape_zero _).symm⟩

theorem costTo_lift {α : Type} {P : α → Prop} {x : Res α} (h : ∀ a, x = .ok a → P a) (c : Nat) : CostTo c P (M.lift x) := by
  intro t b t' e
  obtain ⟨h1, rfl⟩ := M.lift_ok.1 e
  exact ⟨h b h1, 0, Nat.zero_le _, (skipTape_zero _).symm⟩

theorem costTo_bind {α β : Type} {m : M α} {f : α → M β} {c d : Nat} {P : α → Prop} {Q : β → Prop} (hm : CostTo c P m)
    (hf : ∀ a, P a → CostTo d Q (f a)) : CostTo (c + d) Q (m >>= f) := by
  intro t b t' h
  obtain ⟨a, t1, h1, h2⟩ := M.bind_ok.1 h
  obtain ⟨hP, k, hk, rfl⟩ := hm _ _ _ h1
  obtain ⟨hQ, k', hk', rfl⟩ := hf _ hP _ _ _ h2
  exact ⟨hQ, k + k', by omega, skipTape_add _ _ _⟩

theorem costTo_mono {α : Type} {m : M α} {c d : Nat} {P : α → Prop} (h : CostTo c P m) (hd : c ≤ d) : CostTo d P m := by
  intro t a t' e
  obtain ⟨hP, k, hk, h1⟩ := h t a t' e
  exact ⟨hP, k, by omega, h1⟩

/-- The nodes of the store have states in `R` and at most `L` moves without a child, all legal. -/
def Slim (R : G.S → Prop) (L : Nat) (st : Store G Fl) : Prop :=
  ∀ n ∈ st, R n.state ∧ n.expandable.length ≤ L ∧ ∃ ms, G.moves n.state = .ok ms ∧ ∀ a ∈ n.expandable, a ∈ ms

/-- No state in `R` has more than `L` legal moves. -/
def Few (G : Game) (R : G.S → Prop) (L : Nat) : Prop := ∀ s ms, R s → G.moves s = .ok ms → ms.length ≤ L

theorem slim_get {R : G.S → Prop} {L i : Nat} {st : Store G Fl} {n : Node G Fl} (h : Slim R L st) (hi : getNode st i = .ok n) :
    R n.state ∧ n.expandable.length ≤ L ∧ ∃ ms, G.moves n.state = .ok ms ∧ ∀ a ∈ n.expandable, a ∈ ms :=
  h n (List.mem_of_getElem? (getNode_ok.1 hi))

theorem slim_set {R : G.S → Prop} {L i : Nat} {st : Store G Fl} {n : Node G Fl} (h : Slim R L st)
    (hn : R n.state ∧ n.expandable.length ≤ L ∧ ∃ ms, G.moves n.state = .ok ms ∧ ∀ a ∈ n.expandable, a ∈ ms) : Slim R L (st.set i n) := by
  intro m hm
  rcases List.mem_or_eq_of_mem_set hm with h1 | rfl
  · exact h m h1
  · exact hn

theorem slim_back {R : G.S → Prop} {L : Nat} {r : Fl.F} (f : Nat) {i : Nat} {st st' : Store G Fl} (h : Slim R L st)
    (e : backLoop r f i st = .ok st') : Slim R L st' := by
  induction f generalizing i st with
  | zero => cases e
  | succ f ih =>
    unfold backLoop at e
    obtain ⟨st1, h1, e⟩ := Res.bind_ok.1 e
    have hq : Slim R L st1 := by
      unfold modifyNode at h1
      cases hi : st[i]? with
      | none => rw [hi] at h1; cases h1
      | some n =>
        rw [hi] at h1
        cases h1
        exact slim_set h (h n (List.mem_of_getElem? hi))
    obtain ⟨n, -, e⟩ := Res.bind_ok.1 e
    split at e
    · exact ih hq e
    · cases e; exact hq

theorem slim_add {R : G.S → Prop} {L : Nat} (hL : Few G R L) {st st' : Store G Fl} {s : G.S} {p : Option Nat} {a : Option G.Mv}
    {pol : Fl.F} {k : Nat} (h : Slim R L st) (hs : R s) (e : addNode st s p a pol = .ok (st', k)) : Slim R L st' := by
  obtain ⟨ms, h1, -, rfl⟩ := addNode_ok.1 e
  intro n hn
  rcases List.mem_append.1 hn with hn | hn
  · exact h n hn
  · obtain rfl := List.mem_singleton.1 hn
    exact ⟨hs, hL s ms hs h1, ms, h1, fun a ha => ha⟩

variable {R : G.S → Prop} {L c : Nat}

theorem cost_expandLoop (hs : Safe G R) (hL : Few G R L) (hc : Frugal G c) {n : Node G Fl} {prior : Nat → Res Fl.F} (hR : R n.state)
    {ms : List G.Mv} (hm : G.moves n.state = .ok ms) (as : List G.Mv) (has : ∀ a ∈ as, a ∈ ms) (st : Store G Fl) (h : Slim R L st)
    (ch : List Nat) : CostTo (c * as.length) (fun r : Store G Fl × List Nat => Slim R L r.1) (alphaExpandLoop n prior as st ch) := by
  induction as generalizing st ch with
  | nil => exact costTo_pure (P := fun r : Store G Fl × List Nat => Slim R L r.1) h _
  | cons a as ih =>
    unfold alphaExpandLoop
    rw [List.length_cons, Nat.mul_add, Nat.mul_one, Nat.add_comm, ← Nat.zero_add (c + _)]
    refine costTo_bind (P := fun _ => True) (costTo_lift (fun _ _ => trivial) 0) fun code _ => ?_
    rw [← Nat.zero_add (c + _)]
    refine costTo_bind (P := fun _ => True) (costTo_lift (fun _ _ => trivial) 0) fun v _ => ?_
    refine costTo_bind (P := fun s' => R s') (fun t s' t' e => ⟨hs.closed _ _ a _ hR hm (has a (List.mem_cons_self ..)) ⟨t, t', e⟩,
      hc.apply _ _ _ _ _ e⟩) fun next hn => ?_
    rw [← Nat.zero_add (c * _)]
    refine costTo_bind (P := fun r : Store G Fl × Nat => Slim R L r.1) (costTo_lift (fun r e => slim_add hL h hn e) 0) fun r hr => ?_
    exact ih (fun b hb => has b (List.mem_cons_of_mem _ hb)) r.1 hr _

theorem cost_expandWith (hs : Safe G R) (hL : Few G R L) (hc : Frugal G c) {n : Node G Fl} {prior : Nat → Res Fl.F}
    (hn : R n.state ∧ n.expandable.length ≤ L ∧ ∃ ms, G.moves n.state = .ok ms ∧ ∀ a ∈ n.expandable, a ∈ ms) {st : Store G Fl}
    (h : Slim R L st) : CostTo (c * L) (fun r : Store G Fl × Node G Fl => Slim R L r.1) (alphaExpandWith n prior st) := by
  obtain ⟨hR, hlen, ms, hm, has⟩ := hn
  unfold alphaExpandWith
  refine costTo_mono (c := c * n.expandable.length + (0 + 0)) ?_ (Nat.mul_le_mul_left _ hlen)
  refine costTo_bind (cost_expandLoop hs hL hc hR hm _ has st h []) fun r hr => ?_
  refine costTo_bind (P := fun st' : Store G Fl => Slim R L st') (costTo_lift (fun st' e => ?_) 0) fun st' h' =>
    costTo_pure (P := fun r : Store G Fl × Node G Fl => Slim R L r.1) h' _
  unfold setNode at e
  split at e
  · cases e
    exact slim_set hr ⟨hR, Nat.zero_le _, ms, hm, fun a ha => by cases ha⟩
  · cases e

theorem cost_expandRoots (hs : Safe G R) (hL : Few G R L) (hc : Frugal G c) {probs : Tensor Fl.F} (is : List Nat) (st : Store G Fl)
    (h : Slim R L st) : CostTo (c * L * is.length) (fun st' : Store G Fl => Slim R L st') (expandRoots probs is st) := by
  induction is generalizing st with
  | nil => exact costTo_pure h _
  | cons i is ih =>
    unfold expandRoots
    rw [List.length_cons, Nat.mul_add, Nat.mul_one, Nat.add_comm, ← Nat.zero_add (c * L + _)]
    refine costTo_bind (P := fun n : Node G Fl => R n.state ∧ n.expandable.length ≤ L ∧
      ∃ ms, G.moves n.state = .ok ms ∧ ∀ a ∈ n.expandable, a ∈ ms) (costTo_lift (fun n e => slim_get h e) 0) fun n hn => ?_
    rw [← Nat.zero_add (c * L + _)]
    refine costTo_bind (P := fun _ => True) (costTo_lift (fun _ _ => trivial) 0) fun row _ => ?_
    exact costTo_bind (cost_expandWith (n := { n with visits := 1 }) hs hL hc hn h) fun r hr => ih r.1 hr

theorem slim_addRoots (hL : Few G R L) (ss : List G.S) (hss : ∀ s ∈ ss, R s) {st st' : Store G Fl} (h : Slim R L st)
    (e : addRoots ss st = .ok st') : Slim R L st' := by
  induction ss generalizing st with
  | nil => cases e; exact h
  | cons s ss ih =>
    unfold addRoots at e
    obtain ⟨⟨st1, k⟩, h1, e⟩ := Res.bind_ok.1 e
    exact ih (fun x hx => hss x (List.mem_cons_of_mem _ hx)) (slim_add hL h (hss s (List.mem_cons_self ..)) h1) e

theorem cost_start (hs : Safe G R) (hL : Few G R L) (hc : Frugal G c) {net : Net Fl} {ss : List G.S} (hss : ∀ s ∈ ss, R s) :
    CostTo (1 + c * L * ss.length) (fun st' : Store G Fl => Slim R L st') (parallelStart net ss ([] : Store G Fl)) := by
  unfold parallelStart
  rw [← Nat.zero_add (1 + _)]
  refine costTo_bind (P := fun _ => True) (costTo_lift (fun _ _ => trivial) 0) fun _ _ => ?_
  rw [← Nat.zero_add (1 + _)]
  refine costTo_bind (P := fun _ => True) (costTo_lift (fun _ _ => trivial) 0) fun ts _ => ?_
  rw [← Nat.zero_add (1 + _)]
  refine costTo_bind (P := fun _ => True) (costTo_lift (fun _ _ => trivial) 0) fun x _ => ?_
  refine costTo_bind (P := fun _ => True) ?_ fun pol _ => ?_
  · intro t a t' e
    refine ⟨trivial, ?_⟩
    have : Cost 1 (applyDirichletTensor net (net.policyTensor G x)) := by
      refine cost_bind (c := 1) (d := 0) ?_ fun _ => cost_pure _ _
      unfold sampleDirichlet
      split
      · exact cost_bind (d := 0) cost_draw fun _ => cost_pure _ _
      · intro t a t' e
        exact absurd e (by intro h; cases h)
    exact this _ _ _ e
  · rw [← Nat.zero_add (c * L * _)]
    refine costTo_bind (P := fun st' : Store G Fl => Slim R L st') (costTo_lift (fun st' e => slim_addRoots hL ss hss
      (fun n hn => by cases hn) e) 0) fun st1 h1 => ?_
    rw [← Nat.zero_add (c * L * _)]
    refine costTo_bind (P := fun _ => True) (costTo_lift (fun _ _ => trivial) 0) fun probs _ => ?_
    have := cost_expandRoots (probs := probs) hs hL hc (List.range ss.length) st1 h1
    rwa [List.length_range] at this

theorem slim_select {order : List Nat} {st : Store G Fl} {sel : List Nat} {flag : Bool} {r : Store G Fl × List Nat × Bool} (h : Slim R L st)
    (e : selectPhase order st sel flag = .ok r) : Slim R L r.1 ∧ r.2.1.length = sel.length := by
  unfold selectPhase at e
  induction order generalizing st sel flag with
  | nil => cases e; exact ⟨h, rfl⟩
  | cons g gs ih =>
    rw [List.foldlM_cons] at e
    obtain ⟨⟨st1, sel1, flag1⟩, h1, e⟩ := Res.bind_ok.1 e
    have h2 : Slim R L st1 ∧ sel1.length = sel.length := by
      simp only at h1
      unfold selectGame at h1
      obtain ⟨i, -, h1⟩ := Res.bind_ok.1 h1
      obtain ⟨node, -, h1⟩ := Res.bind_ok.1 h1
      split at h1
      · obtain ⟨root, -, h1⟩ := Res.bind_ok.1 h1
        obtain ⟨st2, h2, h1⟩ := Res.bind_ok.1 h1
        cases h1
        exact ⟨slim_back _ h h2, rfl⟩
      · split at h1
        · cases h1
          exact ⟨h, List.length_set⟩
        · cases h1
    obtain ⟨h3, h4⟩ := ih h2.1 e
    exact ⟨h3, h4.trans h2.2⟩

theorem cost_expandPhase (hs : Safe G R) (hL : Few G R L) (hc : Frugal G c) {net : Net Fl} {policy eval : Tensor Fl.F}
    (l : List (Nat × Nat)) (st : Store G Fl) (h : Slim R L st) :
    CostTo (c * L * l.length) (fun st' : Store G Fl => Slim R L st') (expandPhase net policy eval l st) := by
  induction l generalizing st with
  | nil => exact costTo_pure h _
  | cons p l ih =>
    obtain ⟨row, i⟩ := p
    unfold expandPhase
    rw [List.length_cons, Nat.mul_add, Nat.mul_one, Nat.add_comm, ← Nat.zero_add (c * L + _)]
    refine costTo_bind (P := fun n : Node G Fl => R n.state ∧ n.expandable.length ≤ L ∧
      ∃ ms, G.moves n.state = .ok ms ∧ ∀ a ∈ n.expandable, a ∈ ms) (costTo_lift (fun n e => slim_get h e) 0) fun n hn => ?_
    rw [← Nat.zero_add (c * L + _)]
    refine costTo_bind (P := fun _ => True) (costTo_lift (fun _ _ => trivial) 0) fun pp _ => ?_
    rw [← Nat.zero_add (c * L + _)]
    refine costTo_bind (P := fun _ => True) (costTo_lift (fun _ _ => trivial) 0) fun ee _ => ?_
    rw [← Nat.zero_add (c * L + _)]
    refine costTo_bind (P := fun _ => True) (costTo_lift (fun _ _ => trivial) 0) fun probs _ => ?_
    refine costTo_bind (cost_expandWith hs hL hc hn h) fun r hr => ?_
    rw [← Nat.zero_add (c * L * _)]
    refine costTo_bind (P := fun _ => True) (costTo_lift (fun _ _ => trivial) 0) fun value _ => ?_
    rw [← Nat.zero_add (c * L * _)]
    refine costTo_bind (P := fun st' : Store G Fl => Slim R L st') (costTo_lift (fun st' e => slim_back _ hr e) 0) fun st' h' => ih st' h'

theorem cost_iteration (hs : Safe G R) (hL : Few G R L) (hc : Frugal G c) {net : Net Fl} {order : List Nat} (st : Store G Fl)
    (h : Slim R L st) (sel : List Nat) : CostTo (c * L * sel.length)
      (fun r : Store G Fl × List Nat => Slim R L r.1 ∧ r.2.length = sel.length) (parallelIteration net order st sel) := by
  unfold parallelIteration
  rw [← Nat.zero_add (c * L * _)]
  refine costTo_bind (P := fun r : Store G Fl × List Nat × Bool => Slim R L r.1 ∧ r.2.1.length = sel.length)
    (costTo_lift (fun r e => slim_select h e) 0) fun r hr => ?_
  obtain ⟨st1, sel1, flag⟩ := r
  simp only at hr ⊢
  split
  · exact costTo_pure (P := fun r : Store G Fl × List Nat => Slim R L r.1 ∧ r.2.length = sel.length) hr _
  · rw [← Nat.zero_add (c * L * _)]
    refine costTo_bind (P := fun _ => True) (costTo_lift (fun _ _ => trivial) 0) fun ts _ => ?_
    rw [← Nat.zero_add (c * L * _)]
    refine costTo_bind (P := fun _ => True) (costTo_lift (fun _ _ => trivial) 0) fun x _ => ?_
    have := cost_expandPhase (net := net) (policy := net.policyTensor G x) (eval := net.evalTensor x) hs hL hc
      ((List.range sel1.length).zip sel1) st1 hr.1
    have e : ((List.range sel1.length).zip sel1).length = sel.length := by
      rw [List.length_zip, List.length_range, Nat.min_self, hr.2]
    rw [e] at this
    exact costTo_bind (d := 0) this fun st2 h2 =>
      costTo_pure (P := fun r : Store G Fl × List Nat => Slim R L r.1 ∧ r.2.length = sel.length) ⟨h2, hr.2⟩ _

theorem cost_iterate (hs : Safe G R) (hL : Few G R L) (hc : Frugal G c) {net : Net Fl} {order : List Nat} (k : Nat) (st : Store G Fl)
    (h : Slim R L st) (sel : List Nat) :
    CostTo (c * L * sel.length * k) (fun _ => True) (parallelIterate net order k st sel) := by
  induction k generalizing st sel with
  | zero => exact costTo_pure trivial _
  | succ k ih =>
    unfold parallelIterate
    rw [Nat.mul_add, Nat.mul_one, Nat.add_comm]
    refine costTo_bind (cost_iteration (net := net) (order := order) hs hL hc st h sel) fun r hr => ?_
    have := ih r.1 hr.1 r.2
    rwa [hr.2] at this

theorem cost_parallel (hs : Safe G R) (hL : Few G R L) (hc : Frugal G c) {net : Net Fl} {order : List Nat} {ss : List G.S}
    (hss : ∀ s ∈ ss, R s) (k : Nat) :
    Cost (1 + c * L * ss.length + c * L * ss.length * k) (alphaMctsParallel net order ss k ([] : Store G Fl)) := by
  have : CostTo (1 + c * L * ss.length + (c * L * ss.length * k + 0)) (fun _ => True)
      (alphaMctsParallel net order ss k ([] : Store G Fl)) := by
    unfold alphaMctsParallel
    refine costTo_bind (cost_start hs hL hc hss) fun st h => ?_
    have h1 := cost_iterate (net := net) (order := order) hs hL hc k st h (List.replicate ss.length 0)
    rw [List.length_replicate] at h1
    exact costTo_bind h1 fun _ _ => costTo_pure trivial _
  exact this.cost

theorem cost_chooseAll (pw : Rat → Rat) (roots : List (Node G Fl)) (rows : List Row) : Cost roots.length (chooseAll pw roots rows) := by
  induction roots generalizing rows with
  | nil => exact cost_pure _ _
  | cons root roots ih =>
    cases rows with
    | nil =>
      intro t a t' e
      exact absurd e (by intro h; cases h)
    | cons row rows =>
      unfold chooseAll
      rw [List.length_cons, Nat.add_comm]
      refine cost_bind (c := 1) ?_ fun _ => cost_bind (d := 0) (ih rows) fun _ => cost_pure _ _
      split
      · exact cost_pure _ _
      · refine cost_bind (d := 0) ?_ fun _ => cost_lift _ _
        unfold weightedSelect
        split
        · refine cost_bind (d := 0) (cost_choose _) fun r => ?_
          cases r with
          | none =>
            intro t a t' e
            exact absurd e (by intro h; cases h)
          | some x => exact cost_pure _ _
        · intro t a t' e
          exact absurd e (by intro h; cases h)

/-- The network player takes a bounded number of numbers for each game. -/
theorem thrifty_model (hs : Safe G R) (hL : Few G R L) (hc : Frugal G c) {pl : Player Fl} (hp : pl.agent = .model) (cfg : Config)
    {order : Nat → Nat → List Nat} (ho : ∀ k n, (order k n).Perm (List.range n)) :
    Thrifty R (2 + c * L * (1 + cfg.iterations)) (fun k => getActions (G := G) pl cfg (order k)) := by
  intro k ss hR
  by_cases he : ss = []
  · subst he
    exact cost_pure _ _
  · show Cost _ (getActions pl cfg (order k) ss)
    have hpos : 1 ≤ ss.length := List.length_pos_iff.2 he
    unfold getActions
    rw [if_neg (by rw [List.isEmpty_iff]; exact he), hp]
    simp only
    refine cost_mono (c := 0 + ((1 + c * L * ss.length + c * L * ss.length * cfg.iterations) + ss.length)) ?_ ?_
    · refine cost_bind (cost_lift _ _) fun net => ?_
      intro t a t' e
      obtain ⟨st, t1, e1, e2⟩ := M.bind_ok.1 e
      obtain ⟨j, hj, rfl⟩ := cost_parallel hs hL hc hR _ _ _ _ e1
      have f := alphaMctsParallel_forest (ho k _) e1
      obtain ⟨rows, t2, e3, e4⟩ := M.bind_ok.1 e2
      obtain ⟨-, rfl⟩ := M.lift_ok.1 e3
      obtain ⟨j', hj', rfl⟩ := cost_chooseAll _ _ _ _ _ _ e4
      have hr : (getRootNodes st).length ≤ ss.length := by
        rw [getRootNodes_take f, List.length_take]
        exact Nat.min_le_left _ _
      exact ⟨j + j', by omega, skipTape_add _ _ _⟩
    · have : (2 + c * L * (1 + cfg.iterations)) * ss.length =
          2 * ss.length + c * L * ss.length + c * L * ss.length * cfg.iterations := by ring
      omega

end DieE.Versus
