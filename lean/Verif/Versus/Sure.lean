import Verif.Versus.Progress

/-!
# Matches that do not end

If a match never ends, one of its games only passes from the round limit on, although the dice are rolled again in every
round.
-/

namespace DieE.Versus
open DieE.Mcts

variable {G : Game} {Fl : Floats}

/-- The tape without its first `k` numbers. -/
def skipTape (k : Nat) (t : Tape) : Tape := fun i => t (k + i)

theorem skipTape_zero (t : Tape) : skipTape 0 t = t := by
  funext i
  exact congrArg t (Nat.zero_add i)

theorem skipTape_add (a b : Nat) (t : Tape) : skipTape b (skipTape a t) = skipTape (a + b) t := by
  funext i
  exact congrArg t (by omega)

/-- The computation takes at most `c` numbers from the tape. -/
def Cost {α : Type} (c : Nat) (m : M α) : Prop := ∀ t a t', m t = .ok (a, t') → ∃ k ≤ c, t' = skipTape k t

theorem cost_pure {α : Type} (a : α) (c : Nat) : Cost c (pure a : M α) := by
  intro t b t' h
  obtain ⟨-, rfl⟩ := Prod.mk.inj (Except.ok.inj h)
  exact ⟨0, Nat.zero_le _, (skipTape_zero _).symm⟩

theorem cost_lift {α : Type} (x : Res α) (c : Nat) : Cost c (M.lift x) := by
  intro t b t' h
  obtain ⟨-, rfl⟩ := M.lift_ok.1 h
  exact ⟨0, Nat.zero_le _, (skipTape_zero _).symm⟩

theorem cost_bind {α β : Type} {m : M α} {f : α → M β} {c d : Nat} (hm : Cost c m) (hf : ∀ a, Cost d (f a)) : Cost (c + d) (m >>= f) := by
  intro t b t' h
  obtain ⟨a, t1, h1, h2⟩ := M.bind_ok.1 h
  obtain ⟨k, hk, rfl⟩ := hm _ _ _ h1
  obtain ⟨k', hk', rfl⟩ := hf _ _ _ _ h2
  exact ⟨k + k', by omega, skipTape_add _ _ _⟩

theorem cost_mono {α : Type} {m : M α} {c d : Nat} (h : Cost c m) (hd : c ≤ d) : Cost d m := by
  intro t a t' e
  obtain ⟨k, hk, h1⟩ := h t a t' e
  exact ⟨k, by omega, h1⟩

theorem cost_draw : Cost 1 M.draw := by
  intro t a t' h
  obtain ⟨-, rfl⟩ := Prod.mk.inj (Except.ok.inj h)
  exact ⟨1, le_refl _, funext fun i => congrArg t (by omega)⟩

theorem cost_choose {α : Type} (l : List α) : Cost 1 (M.choose l) := by
  cases l with
  | nil => exact cost_pure _ _
  | cons a l => exact cost_bind (d := 0) cost_draw fun _ => cost_pure _ _

theorem cost_randomAction (s : G.S) : Cost 1 (randomAction s) :=
  cost_bind (c := 0) (d := 1) (cost_lift _ _) fun _ => cost_bind (d := 0) (cost_choose _) fun _ => cost_pure _ _

theorem cost_eachGame {f : G.S → M G.Mv} {c : Nat} (h : ∀ s, Cost c (f s)) (ss : List G.S) : Cost (c * ss.length) (eachGame f ss) := by
  induction ss with
  | nil => exact cost_pure _ _
  | cons s ss ih =>
    rw [List.length_cons, Nat.mul_add, Nat.mul_one, Nat.add_comm]
    exact cost_bind (h s) fun _ => cost_bind (d := 0) ih fun _ => cost_pure _ _

/-- The numbers taken by a game: passing takes at least one. -/
structure Frugal (G : Game) (c : Nat) : Prop where
  apply : ∀ s a, Cost c (G.apply s a)
  skip : ∀ s t s' t', G.skip s t = .ok (s', t') → ∃ k, 1 ≤ k ∧ k ≤ c ∧ t' = skipTape k t

/-- What a round adds to the games, on a tape of which it takes `k` numbers, at most `b`: every pass takes its dice from
the tape. -/
def Adds (b : Nat) (t : Tape) (m m' : Match G) (k : Nat) : Prop :=
  ∀ i, ∃ l, m'.steps i = m.steps i ++ l ∧ ∀ st ∈ l, st.action = G.emptyMove →
    1 ≤ k ∧ ∃ k' ≤ b, ∃ u, G.skip st.before (skipTape k' t) = .ok (st.after, u)

theorem playAction_adds {c : Nat} (hc : Frugal G c) {a1 a2 : Agent} {limit round : Nat} {first : Bool} {a : G.Mv} {g : G.S}
    {m m' : Match G} {E E' : List Nat} {t t' : Tape} (h : playAction a1 a2 limit round first a g m E t = .ok ((m', E'), t')) :
    ∃ k ≤ c, t' = skipTape k t ∧ Adds 0 t m m' k := by
  unfold playAction at h
  obtain ⟨⟨s, r⟩, t1, h1, h2⟩ := M.bind_ok.1 h
  obtain ⟨-, rfl⟩ := M.lift_ok.1 h1
  simp only at h2
  have put : ∀ (s' : G.S) (r : Rec G) (k : Nat), (a = G.emptyMove → 1 ≤ k ∧ ∃ u, G.skip s t1 = .ok (s', u)) →
      ∀ i, ∃ l, (m.put (G.id g) s' r ⟨first, s, a, s'⟩).steps i = m.steps i ++ l ∧ ∀ st ∈ l, st.action = G.emptyMove →
        1 ≤ k ∧ ∃ k' ≤ 0, ∃ u, G.skip st.before (skipTape k' t1) = .ok (st.after, u) := by
    intro s' r k hk i
    by_cases hi : i = G.id g
    · subst hi
      refine ⟨[⟨first, s, a, s'⟩], if_pos rfl, fun st hst ha => ?_⟩
      obtain rfl := List.mem_singleton.1 hst
      obtain ⟨h1, u, h2⟩ := hk ha
      exact ⟨h1, 0, le_refl _, u, by rw [skipTape_zero]; exact h2⟩
    · exact ⟨[], by rw [List.append_nil]; exact if_neg hi, fun st hst => by cases hst⟩
  by_cases ha : a = G.emptyMove
  · rw [if_pos ha] at h2
    obtain ⟨s', t2, h3, h4⟩ := M.bind_ok.1 h2
    obtain ⟨h5, rfl⟩ := Prod.mk.inj (Except.ok.inj h4)
    obtain ⟨rfl, -⟩ := Prod.mk.inj h5
    obtain ⟨k, hk1, hk, rfl⟩ := hc.skip _ _ _ _ h3
    exact ⟨k, hk, rfl, put s' r k fun _ => ⟨hk1, _, h3⟩⟩
  · rw [if_neg ha] at h2
    obtain ⟨ms, t2, h3, h4⟩ := M.bind_ok.1 h2
    obtain ⟨-, rfl⟩ := M.lift_ok.1 h3
    obtain ⟨_u, t3, h5, h6⟩ := M.bind_ok.1 h4
    obtain ⟨-, rfl⟩ := M.lift_ok.1 h5
    obtain ⟨s', t4, h7, h8⟩ := M.bind_ok.1 h6
    obtain ⟨k, hk, rfl⟩ := hc.apply _ _ _ _ _ h7
    have hput := fun r => put s' r k fun e => absurd e ha
    have fin : ∀ (r' : Rec G) (w1 w2 : Nat) (E0 : List Nat) (u : Tape),
        (pure ({ m.put (G.id g) s' r' ⟨first, s, a, s'⟩ with wins1 := w1, wins2 := w2 }, E0) : M (Match G × List Nat)) u =
          .ok ((m', E'), t') → t' = u ∧ Adds 0 t3 m m' k := by
      intro r' w1 w2 E0 u e
      obtain ⟨e', e''⟩ := Prod.mk.inj (Except.ok.inj e)
      obtain ⟨rfl, -⟩ := Prod.mk.inj e'
      exact ⟨e''.symm, hput r'⟩
    have done : t' = skipTape k t3 ∧ Adds 0 t3 m m' k := by
      cases hw : G.winner s' with
      | some w =>
        rw [hw] at h8
        simp only at h8
        by_cases hw1 : w = -1
        · rw [if_pos hw1] at h8
          exact fin _ _ _ _ _ h8
        · rw [if_neg hw1] at h8
          by_cases hw2 : w = - -1
          · rw [if_pos hw2] at h8
            exact fin _ _ _ _ _ h8
          · rw [if_neg hw2] at h8
            exact fin _ _ _ _ _ h8
      | none =>
        rw [hw] at h8
        simp only at h8
        by_cases hr : round ≥ limit
        · rw [if_pos hr] at h8
          simp only at h8
          rw [if_neg (by decide), if_neg (by decide)] at h8
          exact fin _ _ _ _ _ h8
        · rw [if_neg hr] at h8
          exact fin _ _ _ _ _ h8
    exact ⟨k, hk, done⟩

theorem playActions_adds {c : Nat} (hc : Frugal G c) {a1 a2 : Agent} {limit round : Nat} (L : List (Bool × G.Mv × G.S))
    {m m' : Match G} {E E' : List Nat} {t t' : Tape} (h : playActions a1 a2 limit round L m E t = .ok ((m', E'), t')) :
    ∃ k ≤ c * L.length, t' = skipTape k t ∧ Adds (c * L.length) t m m' k := by
  induction L generalizing m E t with
  | nil =>
    obtain ⟨h', rfl⟩ := Prod.mk.inj (Except.ok.inj h)
    obtain ⟨rfl, -⟩ := Prod.mk.inj h'
    exact ⟨0, Nat.zero_le _, (skipTape_zero _).symm, fun i => ⟨[], (List.append_nil _).symm, fun st hst => by cases hst⟩⟩
  | cons x L ih =>
    obtain ⟨first, a, g⟩ := x
    obtain ⟨⟨m1, E1⟩, t1, h1, h2⟩ := M.bind_ok.1 h
    obtain ⟨k1, hk1, rfl, ha1⟩ := playAction_adds hc h1
    obtain ⟨k2, hk2, rfl, ha2⟩ := ih h2
    rw [List.length_cons, Nat.mul_add, Nat.mul_one]
    refine ⟨k1 + k2, by omega, skipTape_add _ _ _, fun i => ?_⟩
    obtain ⟨l1, e1, p1⟩ := ha1 i
    obtain ⟨l2, e2, p2⟩ := ha2 i
    refine ⟨l1 ++ l2, by rw [e2, e1, List.append_assoc], fun st hst he => ?_⟩
    rcases List.mem_append.1 hst with hst | hst
    · obtain ⟨q1, k', q2, q3⟩ := p1 st hst he
      exact ⟨by omega, k', by omega, q3⟩
    · obtain ⟨q1, k', q2, u, q3⟩ := p2 st hst he
      exact ⟨by omega, k1 + k', by omega, u, by rw [← skipTape_add]; exact q3⟩

theorem removeGames_steps (E : List Nat) {m m' : Match G} (h : removeGames E m = .ok m') : m'.steps = m.steps := by
  induction E generalizing m with
  | nil =>
    obtain rfl := Except.ok.inj h
    rfl
  | cons i E ih =>
    unfold removeGames at h
    split at h
    · cases h
    · exact (ih h).trans rfl

/-- The numbers taken by a player in states of `R`. -/
def Thrifty (R : G.S → Prop) (c : Nat) (acts : Acts G) : Prop := ∀ k ss, (∀ s ∈ ss, R s) → Cost (c * ss.length) (acts k ss)

theorem Thrifty.mono {R : G.S → Prop} {c d : Nat} {acts : Acts G} (h : Thrifty R c acts) (hd : c ≤ d) : Thrifty R d acts :=
  fun k ss hR => cost_mono (h k ss hR) (Nat.mul_le_mul_right _ hd)

theorem thrifty_random {R : G.S → Prop} {pl : Player Fl} (hp : pl.agent = .random) (cfg : Config) (order : Nat → Nat → List Nat) :
    Thrifty R 1 (fun k => getActions (G := G) pl cfg (order k)) := by
  intro k ss _hR
  by_cases he : ss = []
  · subst he
    exact cost_pure _ _
  · show Cost _ (getActions pl cfg (order k) ss)
    unfold getActions
    rw [if_neg (by rw [List.isEmpty_iff]; exact he), hp]
    exact cost_eachGame cost_randomAction ss

theorem pool_length (m : Match G) (order : List Nat) : (pool m order).length ≤ order.length := List.length_filterMap_le _ _

theorem playRound_adds {R : G.S → Prop} {c d : Nat} (hc : Frugal G c) {a1 a2 : Agent} {acts1 acts2 : Acts G}
    (h1 : Thrifty R d acts1) (h2 : Thrifty R d acts2) {limit : Nat} {order : List Nat} {k : Nat} {m m' : Match G} {t t' : Tape}
    (hR : ∀ s ∈ pool m order, R s)
    (h : playRound a1 a2 acts1 acts2 limit order k m t = .ok (m', t')) :
    ∃ j ≤ (2 * d + 2 * c) * order.length, t' = skipTape j t ∧ Adds ((2 * d + 2 * c) * order.length) t m m' j := by
  rw [playRound_eq] at h
  obtain ⟨as1, t1, e1, h⟩ := M.bind_ok.1 h
  obtain ⟨as2, t2, e2, h⟩ := M.bind_ok.1 h
  obtain ⟨⟨m1, E⟩, t3, e3, e4⟩ := M.bind_ok.1 h
  obtain ⟨hrem, rfl⟩ := M.lift_ok.1 e4
  obtain ⟨j1, hj1, rfl⟩ := h1 _ _ (fun s hs => hR s (List.mem_filter.1 hs).1) _ _ _ e1
  obtain ⟨j2, hj2, rfl⟩ := h2 _ _ (fun s hs => hR s (List.mem_filter.1 hs).1) _ _ _ e2
  obtain ⟨j3, hj3, rfl, ha⟩ := playActions_adds hc _ e3
  have hp := pool_length m order
  have l1 := List.length_filter_le (fun s => decide (G.player s = -1)) (pool m order)
  have l2 := List.length_filter_le (fun s => !decide (G.player s = -1)) (pool m order)
  have l3 : (triples as1 as2 (pool m order)).length ≤ 2 * (pool m order).length := by
    unfold triples
    rw [List.length_append, List.length_map, List.length_map, List.length_zip, List.length_zip]
    omega
  have b1 := Nat.mul_le_mul_left d (l1.trans hp)
  have b2 := Nat.mul_le_mul_left d (l2.trans hp)
  have b3 := Nat.mul_le_mul_left c (l3.trans (Nat.mul_le_mul_left 2 hp))
  have e : (2 * d + 2 * c) * order.length = d * order.length + d * order.length + c * (2 * order.length) := by ring
  rw [e]
  refine ⟨j1 + j2 + j3, by omega, by rw [skipTape_add, skipTape_add, Nat.add_assoc], fun i => ?_⟩
  obtain ⟨l, q1, q2⟩ := ha i
  refine ⟨l, by rw [removeGames_steps E hrem]; exact q1, fun st hst he => ?_⟩
  obtain ⟨r1, k', r2, u, r3⟩ := q2 st hst he
  refine ⟨by omega, j1 + j2 + k', by omega, u, ?_⟩
  rw [← skipTape_add, ← skipTape_add]
  exact r3

/-! ## Endless matches -/

/-- The match goes on from `x` (match and tape) in round `k` and never ends. -/
def Good (R : G.S → Prop) (a1 a2 : Agent) (acts1 acts2 : Acts G) (n limit : Nat) (order : Nat → List Nat → List Nat)
    (init : Nat → G.S) (k : Nat) (x : Match G × Tape × List Nat) : Prop :=
  Inv R a1 a2 Legal Legal n limit init k x.2.2 x.1 ∧ ∀ f r, playLoop a1 a2 acts1 acts2 n limit order f k x.1 x.2.1 ≠ .ok r

/-- One round of an endless match. -/
def Next (a1 a2 : Agent) (acts1 acts2 : Acts G) (n limit : Nat) (order : Nat → List Nat → List Nat) (k : Nat)
    (x y : Match G × Tape × List Nat) : Prop :=
  playRound a1 a2 acts1 acts2 limit (order k (x.1.keys n)) k x.1 x.2.1 = .ok (y.1, y.2.1) ∧ ∃ E, y.2.2 = x.2.2 ++ E

theorem good_next {R : G.S → Prop} (hid : Ids G) (hcl : Closed G R) (hr : Runs G R) {a1 a2 : Agent}
    {acts1 acts2 : Acts G} (hA1 : Able R acts1) (hA2 : Able R acts2) {n limit : Nat} {init : Nat → G.S}
    {order : Nat → List Nat → List Nat} (ho : ∀ k l, (order k l).Perm l) {k : Nat} {x : Match G × Tape × List Nat}
    (h : Good R a1 a2 acts1 acts2 n limit order init k x) :
    x.1.keys n ≠ [] ∧ ∃ y, Next a1 a2 acts1 acts2 n limit order k x y ∧ Good R a1 a2 acts1 acts2 n limit order init (k + 1) y := by
  obtain ⟨m, t, D⟩ := x
  obtain ⟨hinv, hnever⟩ := h
  have hne : ¬ (m.keys n).isEmpty = true := by
    intro he
    refine hnever 0 (m, t) ?_
    show playLoop a1 a2 acts1 acts2 n limit order 0 k m t = _
    unfold playLoop
    rw [if_pos he]
    rfl
  refine ⟨by rwa [List.isEmpty_iff] at hne, ?_⟩
  obtain ⟨m', t', E, h1, h2⟩ := playRound_ok hid hcl hr hA1 hA2 hinv (ho k (m.keys n)) t
  refine ⟨(m', t', D ++ E), ⟨h1, E, rfl⟩, h2, fun f r e => ?_⟩
  refine hnever (f + 1) r ?_
  show playLoop a1 a2 acts1 acts2 n limit order (f + 1) k m t = _
  unfold playLoop
  rw [if_neg hne]
  exact (M.bind_eq h1).trans e

/-- The rounds of an endless match. -/
theorem endless_rounds {R : G.S → Prop} (hid : Ids G) (hcl : Closed G R) (hr : Runs G R) (hb : Begins G R) {a1 a2 : Agent}
    {acts1 acts2 : Acts G} (hA1 : Able R acts1) (hA2 : Able R acts2) {n limit : Nat}
    {order : Nat → List Nat → List Nat} (ho : ∀ k l, (order k l).Perm l) {t : Tape}
    (h : ∀ f r, playRun a1 a2 acts1 acts2 n limit order f t ≠ .ok r) :
    ∃ (init : Nat → G.S) (x : Nat → Match G × Tape × List Nat), (∃ g : Nat → Option (G.S × Rec G), initGames a1 a2 n (List.range n) (fun _ => none) t = .ok (g, (x 0).2.1)) ∧
      ∀ k, Good R a1 a2 acts1 acts2 n limit order init k (x k) ∧ Next a1 a2 acts1 acts2 n limit order k (x k) (x (k + 1)) ∧
        (x k).1.keys n ≠ [] := by
  obtain ⟨g, t1, h1⟩ := initGames_ok hb a1 a2 n (List.range n) (fun _ => none) t
  have hst : ∀ i u s u', initState G n i u = .ok (s, u') → R s := by
    intro i u s u' h
    obtain ⟨s', u'', h2, h3⟩ := hb n i u
    rw [h] at h2
    obtain ⟨rfl, -⟩ := Prod.mk.inj (Except.ok.inj h2)
    exact h3
  obtain ⟨init, -, h3⟩ := initGames_inv (R := R) (A1 := Legal) (A2 := Legal) (limit := limit) hid hst h1
  have h0 : Good R a1 a2 acts1 acts2 n limit order init 0
      ({ games := g, played := [], wins1 := 0, wins2 := 0, steps := fun _ => [] }, t1, []) :=
    ⟨h3, fun f r e => h f r ((M.bind_eq h1).trans e)⟩
  let F : ∀ k, { x : Match G × Tape × List Nat // Good R a1 a2 acts1 acts2 n limit order init k x } := fun k =>
    Nat.rec ⟨_, h0⟩ (fun k x => ⟨Classical.choose (good_next hid hcl hr hA1 hA2 ho x.2).2,
      (Classical.choose_spec (good_next hid hcl hr hA1 hA2 ho x.2).2).2⟩) k
  refine ⟨init, fun k => (F k).1, ⟨g, h1⟩, fun k => ⟨(F k).2, ?_, (good_next hid hcl hr hA1 hA2 ho (F k).2).1⟩⟩
  exact (Classical.choose_spec (good_next hid hcl hr hA1 hA2 ho (F k).2).2).1

/-- In an endless match one game never ends. -/
theorem endless_game {R : G.S → Prop} (hid : Ids G) (hcl : Closed G R) (hr : Runs G R) (hb : Begins G R) {a1 a2 : Agent}
    {acts1 acts2 : Acts G} (hA1 : Able R acts1) (hA2 : Able R acts2) {n limit : Nat}
    {order : Nat → List Nat → List Nat} (ho : ∀ k l, (order k l).Perm l) {t : Tape}
    (h : ∀ f r, playRun a1 a2 acts1 acts2 n limit order f t ≠ .ok r) :
    ∃ (init : Nat → G.S) (x : Nat → Match G × Tape) (i : Nat) (s : Nat → G.S),
      (∃ g : Nat → Option (G.S × Rec G), initGames a1 a2 n (List.range n) (fun _ => none) t = .ok (g, (x 0).2)) ∧
      ∀ k, Live R a1 a2 Legal Legal limit init (x k).1 k i (s k) ∧ (∃ D, Inv R a1 a2 Legal Legal n limit init k D (x k).1) ∧
        playRound a1 a2 acts1 acts2 limit (order k ((x k).1.keys n)) k (x k).1 (x k).2 = .ok (x (k + 1)) := by
  obtain ⟨init, x, h0, hx⟩ := endless_rounds hid hcl hr hb hA1 hA2 ho h
  have mono : ∀ k j, (x k).2.2 ⊆ (x (k + j)).2.2 := by
    intro k j
    induction j with
    | zero => exact fun a ha => ha
    | succ j ih =>
      obtain ⟨E, hE⟩ := (hx (k + j)).2.1.2
      intro a ha
      show a ∈ (x (k + j + 1)).2.2
      rw [hE]
      exact List.mem_append_left _ (ih ha)
  obtain ⟨i, hi, hlive⟩ : ∃ i, i < n ∧ ∀ k, i ∉ (x k).2.2 := by
    by_contra hn
    push Not at hn
    have hK : ∀ N, N ≤ n → ∃ K, ∀ i, i < N → i ∈ (x K).2.2 := by
      intro N
      induction N with
      | zero => exact fun _ => ⟨0, fun i hi => absurd hi (Nat.not_lt_zero i)⟩
      | succ N ih =>
        intro hN
        obtain ⟨K, hK⟩ := ih (by omega)
        obtain ⟨k, hk⟩ := hn N (by omega)
        refine ⟨K + k, fun i hi => ?_⟩
        rcases Nat.lt_succ_iff_lt_or_eq.1 hi with h1 | rfl
        · exact mono K k (hK i h1)
        · rw [Nat.add_comm]
          exact mono k K hk
    obtain ⟨K, hK⟩ := hK n (le_refl n)
    obtain ⟨i, hi⟩ := List.exists_mem_of_ne_nil _ (hx K).2.2
    unfold Match.keys at hi
    rw [List.mem_filter, List.mem_range] at hi
    have hgone := (hx K).1.1.gone i (hK i hi.1)
    rw [hgone] at hi
    exact absurd hi.2 (by simp)
  have hl : ∀ k, ∃ s, Live R a1 a2 Legal Legal limit init (x k).1 k i s := by
    intro k
    rcases ((hx k).1.1.part i).1 hi with h1 | h1
    · exact absurd h1 (hlive k)
    · exact h1
  choose s hs using hl
  exact ⟨init, fun k => ((x k).1, (x k).2.1), i, s, h0, fun k => ⟨hs k, ⟨_, (hx k).1.1⟩, (hx k).2.1.1⟩⟩

theorem linked_last {s0 s : G.S} {l : List (Step G)} {st : Step G} {s1 : G.S} (h1 : Linked G s0 l s) (h2 : Linked G s0 (l ++ [st]) s1) :
    st.before = s ∧ st.after = s1 := by
  have key : ∀ {l : List (Step G)} {a b : G.S}, Linked G s0 l a → Linked G s0 l b → a = b := by
    intro l a b ha hb
    cases ha with
    | nil =>
      generalize hl : ([] : List (Step G)) = l' at hb
      cases hb with
      | nil => rfl
      | snoc st _ _ => exact absurd hl (by simp)
    | @snoc l' m st h e =>
      generalize hl : l' ++ [st] = l'' at hb
      cases hb with
      | nil => exact absurd hl (by simp)
      | snoc st' h' e' =>
        obtain ⟨-, e2⟩ := List.append_inj' hl rfl
        rw [(List.cons.inj e2).1]
  generalize hl : l ++ [st] = l' at h2
  cases h2 with
  | nil => exact absurd hl (by simp)
  | snoc st' h e =>
    obtain ⟨e1, e2⟩ := List.append_inj' hl rfl
    obtain rfl := (List.cons.inj e2).1
    subst e1
    exact ⟨e.trans (key h h1), rfl⟩

/-- An endless match has a game that only passes from the round limit on: there are no moves in the states `s k`, and the
dice come from the tape, which is at position `p k` in round `k`. -/
theorem endless_passes {R : G.S → Prop} (hid : Ids G) (hcl : Closed G R) (hr : Runs G R) (hb : Begins G R)
    (hne : ∀ s ms, G.moves s = .ok ms → R s → G.emptyMove ∉ ms) {c d e : Nat} (hc : Frugal G c) (hinit : ∀ i, Cost e (initState G n i))
    {a1 a2 : Agent} {acts1 acts2 : Acts G} (hA1 : Able R acts1) (hA2 : Able R acts2) (hT1 : Thrifty R d acts1)
    (hT2 : Thrifty R d acts2) {limit : Nat} {order : Nat → List Nat → List Nat} (ho : ∀ k l, (order k l).Perm l) {t : Tape}
    (h : ∀ f r, playRun a1 a2 acts1 acts2 n limit order f t ≠ .ok r) :
    ∃ (s : Nat → G.S) (p : Nat → Nat), ∀ k, limit ≤ k + 1 → R (s k) ∧ G.moves (s k) = .ok [] ∧
      p k < p (k + 1) ∧ p (k + 1) ≤ p k + (2 * d + 2 * c) * n ∧
      ∃ q u, p k ≤ q ∧ q ≤ p k + (2 * d + 2 * c) * n ∧ G.skip (s k) (skipTape q t) = .ok (s (k + 1), u) := by
  obtain ⟨init, x, i, s, ⟨g, h0⟩, hx⟩ := endless_game hid hcl hr hb hA1 hA2 ho h
  have hord : ∀ k, (order k ((x k).1.keys n)).length ≤ n := by
    intro k
    rw [(ho k _).length_eq]
    unfold Match.keys
    exact (List.length_filter_le _ _).trans (by rw [List.length_range])
  have hstep : ∀ k, ∃ j, j ≤ (2 * d + 2 * c) * n ∧ (x (k + 1)).2 = skipTape j (x k).2 ∧
      Adds ((2 * d + 2 * c) * n) (x k).2 (x k).1 (x (k + 1)).1 j := by
    intro k
    obtain ⟨D, hD⟩ := (hx k).2.1
    obtain ⟨j, hj, e1, e2⟩ := playRound_adds hc hT1 hT2 (fun s hs => ((hD.pool (ho k _)).2 s hs).ok) (hx k).2.2
    have hle := Nat.mul_le_mul_left (2 * d + 2 * c) (hord k)
    refine ⟨j, by omega, e1, fun i => ?_⟩
    obtain ⟨l, q1, q2⟩ := e2 i
    refine ⟨l, q1, fun st hst he => ?_⟩
    obtain ⟨r1, k', r2, r3⟩ := q2 st hst he
    exact ⟨r1, k', by omega, r3⟩
  choose j hj1 hj2 hj3 using hstep
  have hini : ∃ p0, (x 0).2 = skipTape p0 t := by
    have key : ∀ is (g : Nat → Option (G.S × Rec G)), Cost (e * is.length) (initGames a1 a2 n is g) := by
      intro is
      induction is with
      | nil => exact fun g => cost_pure _ _
      | cons i is ih =>
        intro g
        rw [List.length_cons, Nat.mul_add, Nat.mul_one, Nat.add_comm]
        exact cost_bind (hinit i) fun _ => ih _
    obtain ⟨p0, -, hp0⟩ := key _ _ _ _ _ h0
    exact ⟨p0, hp0⟩
  obtain ⟨p0, hp0⟩ := hini
  let p : Nat → Nat := fun k => Nat.rec p0 (fun k q => q + j k) k
  have hp : ∀ k, p (k + 1) = p k + j k := fun k => rfl
  have hpt : ∀ k, (x k).2 = skipTape (p k) t := by
    intro k
    induction k with
    | zero => exact hp0
    | succ k ih => rw [hj2 k, ih, skipTape_add, hp]
  refine ⟨s, p, fun k hk => ?_⟩
  have hk0 := (hx k).1
  have hk1 := (hx (k + 1)).1
  obtain ⟨l, q1, q2⟩ := hj3 k i
  have hlen : l.length = 1 := by
    have := congrArg List.length q1
    rw [List.length_append, hk0.len, hk1.len] at this
    omega
  obtain ⟨st, rfl⟩ := List.length_eq_one_iff.1 hlen
  have hlink := hk1.link
  rw [q1] at hlink
  obtain ⟨b1, b2⟩ := linked_last hk0.link hlink
  have hget : ((x (k + 1)).1.steps i)[k]? = some st := by
    rw [q1, List.getElem?_append_right (by rw [hk0.len]), hk0.len, Nat.sub_self]
    rfl
  have hpass : st.action = G.emptyMove := hk1.passes k hk hget
  have hmem : st ∈ (x (k + 1)).1.steps i := List.mem_of_getElem? hget
  obtain ⟨-, hch⟩ := hk1.chosen st hmem
  have hlegal : Legal st.before st.action := by
    by_cases hf : st.first = true
    · rwa [if_pos hf] at hch
    · rwa [if_neg hf] at hch
  obtain ⟨ms, hm1, hm2⟩ := hlegal
  rw [b1] at hm1
  have hms : ms = [] := by
    rcases hm2 with hm2 | hm2
    · rw [hpass] at hm2
      exact absurd hm2 (hne _ _ hm1 hk0.ok)
    · exact hm2.1
  obtain ⟨r1, k', r2, u, r3⟩ := q2 st (List.mem_singleton.2 rfl) hpass
  rw [b1, b2, hpt, skipTape_add] at r3
  have := hj1 k
  refine ⟨hk0.ok, by rw [hm1, hms], by rw [hp]; omega, by rw [hp]; omega, p k + k', u, by omega, by omega, r3⟩

end DieE.Versus
