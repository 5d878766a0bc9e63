import Verif.Versus.Facts
import Verif.Props.SelfPlay

/-! # What the players choose -/

namespace DieE.Versus
open DieE.Mcts DieE.Train DieE.Props.A DieE.Props.S

variable {G : Game} {Fl : Floats}

/-- The actions a player may compute for a state: a random player any legal move; the tree search what it returns for
this state and the player to move; the network player a move whose code has positive probability in the row of this
state, in a batched search over states including this one.  Passing is the empty move. -/
def Picks (pl : Player Fl) (cfg : Config) (s : G.S) (a : G.Mv) : Prop :=
  match pl.agent with
  | .random => ∃ ms, G.moves s = .ok ms ∧ (a ∈ ms ∨ ms = [] ∧ a = G.emptyMove)
  | .mcts => ∃ t t', mctSearch Fl s (G.player s) cfg.iterations cfg.limit t = .ok (a, t')
  | .model => ∃ net, pl.net = some net ∧ ∃ (order : List Nat) (games : List G.S) (t t' : Tape) (st : Store G Fl)
      (rows : List Row) (j : Nat) (root : Node G Fl) (row : Row), order.Perm (List.range games.length) ∧
      alphaMctsParallel net order games cfg.iterations [] t = .ok (st, t') ∧
      getProbTensorParallel (st.take games.length) st = .ok rows ∧
      games[j]? = some s ∧ st[j]? = some root ∧ rows[j]? = some row ∧
      (a = G.emptyMove ∧ (rowSum G.actionSpace (temper cfg.pw row) = some 0 ∨ root.children = []) ∨
        ∃ c x, c < G.actionSpace ∧ temper cfg.pw row c = some x ∧ 0 < x ∧ G.decode s c = .ok a)
  | .none => False

theorem eachGame_forall₂ {f : G.S → M G.Mv} {A : G.S → G.Mv → Prop} (h : ∀ s t a t', f s t = .ok (a, t') → A s a)
    (ss : List G.S) {t t' : Tape} {as : List G.Mv} (hr : eachGame f ss t = .ok (as, t')) : List.Forall₂ A ss as := by
  induction ss generalizing t t' as with
  | nil =>
    obtain ⟨rfl, -⟩ := Prod.mk.inj (Except.ok.inj hr)
    exact .nil
  | cons s ss ih =>
    obtain ⟨a, t1, h1, h2⟩ := M.bind_ok.1 hr
    obtain ⟨as', t2, h3, h4⟩ := M.bind_ok.1 h2
    obtain ⟨rfl, -⟩ := Prod.mk.inj (Except.ok.inj h4)
    exact .cons (h _ _ _ _ h1) (ih h3)

theorem randomAction_ok {s : G.S} {t t' : Tape} {a : G.Mv} (h : randomAction s t = .ok (a, t')) :
    ∃ ms, G.moves s = .ok ms ∧ (a ∈ ms ∨ ms = [] ∧ a = G.emptyMove) := by
  obtain ⟨ms, t1, h1, h2⟩ := M.bind_ok.1 h
  obtain ⟨h1, -⟩ := M.lift_ok.1 h1
  obtain ⟨r, t2, h3, h4⟩ := M.bind_ok.1 h2
  obtain ⟨rfl, -⟩ := Prod.mk.inj (Except.ok.inj h4)
  refine ⟨ms, h1, ?_⟩
  rcases choose_spec ms t1 with ⟨rfl, h5⟩ | ⟨b, t5, hb, h5⟩
  · rw [h5] at h3
    obtain ⟨rfl, -⟩ := Prod.mk.inj (Except.ok.inj h3)
    exact .inr ⟨rfl, rfl⟩
  · rw [h5] at h3
    obtain ⟨rfl, -⟩ := Prod.mk.inj (Except.ok.inj h3)
    exact .inl hb

/-- The choices of the network player, root by root. -/
def Chooses (pw : Rat → Rat) (root : Node G Fl) (row : Row) (a : G.Mv) : Prop :=
  a = G.emptyMove ∧ (rowSum G.actionSpace (temper pw row) = some 0 ∨ root.children = []) ∨
    ∃ c x, c < G.actionSpace ∧ temper pw row c = some x ∧ 0 < x ∧ G.decode root.state c = .ok a

theorem chooseAll_spec {pw : Rat → Rat} (roots : List (Node G Fl)) {rows : List Row} {as : List G.Mv} {t t' : Tape}
    (h : chooseAll pw roots rows t = .ok (as, t')) :
    as.length = roots.length ∧ ∀ (j : Nat) (root : Node G Fl) (a : G.Mv), roots[j]? = some root → as[j]? = some a →
      ∃ row, rows[j]? = some row ∧ Chooses pw root row a := by
  induction roots generalizing rows as t t' with
  | nil =>
    obtain ⟨rfl, -⟩ := Prod.mk.inj (Except.ok.inj h)
    exact ⟨rfl, by simp⟩
  | cons root roots ih =>
    cases rows with
    | nil => cases h
    | cons row rows =>
      obtain ⟨a, t1, h1, h2⟩ := M.bind_ok.1 h
      obtain ⟨as', t2, h3, h4⟩ := M.bind_ok.1 h2
      obtain ⟨rfl, -⟩ := Prod.mk.inj (Except.ok.inj h4)
      obtain ⟨h5, h6⟩ := ih h3
      refine ⟨by rw [List.length_cons, List.length_cons, h5], ?_⟩
      intro j root' a' hj ha
      cases j with
      | succ j => exact h6 j root' a' hj ha
      | zero =>
        obtain rfl : root = root' := by simpa using hj
        obtain rfl : a = a' := by simpa using ha
        refine ⟨row, rfl, ?_⟩
        by_cases hc : (!(rowSum G.actionSpace (temper pw row)).isNonzero || root.children.isEmpty) = true
        · rw [if_pos hc] at h1
          obtain ⟨rfl, -⟩ := Prod.mk.inj (Except.ok.inj h1)
          refine .inl ⟨rfl, ?_⟩
          rcases Bool.or_eq_true _ _ ▸ hc with h7 | h7
          · left
            cases h8 : rowSum G.actionSpace (temper pw row) with
            | none => rw [h8] at h7; cases h7
            | some x =>
              rw [h8] at h7
              unfold Val.isNonzero at h7
              have : x = 0 := by simpa using h7
              rw [this]
          · exact .inr (List.isEmpty_iff.1 h7)
        · rw [if_neg hc] at h1
          obtain ⟨c, t3, h7, h8⟩ := M.bind_ok.1 h1
          obtain ⟨h9, x, h10, h11⟩ := weightedSelect_ok h7
          obtain ⟨h12, -⟩ := M.lift_ok.1 h8
          exact .inr ⟨c, x, h9, h10, h11, h12⟩

/-- The actions returned for a list of games are allowed, game by game. -/
theorem getActions_picks {pl : Player Fl} {cfg : Config} {order : Nat → List Nat}
    (ho : ∀ n, (order n).Perm (List.range n)) {games : List G.S} {as : List G.Mv} {t t' : Tape}
    (h : getActions pl cfg order games t = .ok (as, t')) : List.Forall₂ (Picks pl cfg) games as := by
  unfold getActions at h
  by_cases he : games.isEmpty
  · rw [if_pos he] at h
    obtain ⟨rfl, -⟩ := Prod.mk.inj (Except.ok.inj h)
    rw [List.isEmpty_iff.1 he]
    exact .nil
  rw [if_neg he] at h
  cases hag : pl.agent with
  | none => rw [hag] at h; cases h
  | random =>
    rw [hag] at h
    refine eachGame_forall₂ (fun s t a t' hs => ?_) games h
    unfold Picks
    rw [hag]
    exact randomAction_ok hs
  | mcts =>
    rw [hag] at h
    refine eachGame_forall₂ (fun s t a t' hs => ?_) games h
    unfold Picks
    rw [hag]
    exact ⟨t, t', hs⟩
  | model =>
    rw [hag] at h
    obtain ⟨net, t1, h1, h2⟩ := M.bind_ok.1 h
    obtain ⟨st, t2, h3, h4⟩ := M.bind_ok.1 h2
    obtain ⟨rows, t3, h5, h6⟩ := M.bind_ok.1 h4
    obtain ⟨h5, -⟩ := M.lift_ok.1 h5
    obtain ⟨h1, -⟩ := M.lift_ok.1 h1
    have hnet : pl.net = some net := by
      cases hn : pl.net with
      | none => rw [hn] at h1; cases h1
      | some n =>
        rw [hn] at h1
        rw [Except.ok.inj h1]
    have f := alphaMctsParallel_forest (ho games.length) h3
    have hroots := getRootNodes_take f
    rw [hroots] at h5 h6
    obtain ⟨h7, h8⟩ := chooseAll_spec _ h6
    have hlen : as.length = games.length := by
      rw [h7, List.length_take]
      have := f.len
      omega
    rw [List.forall₂_iff_get]
    refine ⟨hlen.symm, ?_⟩
    intro j hj1 hj2
    have hjs : games[j]? = some games[j] := List.getElem?_eq_getElem hj1
    obtain ⟨root, r1, r2⟩ := f.state j games[j] hjs
    obtain ⟨row, r3, r4⟩ := h8 j root as[j] (by rw [List.getElem?_take, if_pos hj1]; exact r1)
      (List.getElem?_eq_getElem hj2)
    unfold Picks
    rw [hag]
    refine ⟨net, hnet, order games.length, games, t1, t2, st, rows, j, root, row, ho _, h3, h5, hjs, r1, r3, ?_⟩
    unfold Chooses at r4
    rw [r2] at r4
    exact r4

theorem answers_picks {pl : Player Fl} {cfg : Config} {order : Nat → Nat → List Nat}
    (ho : ∀ k n, (order k n).Perm (List.range n)) (R : G.S → Prop) :
    Answers R (Picks pl cfg) (fun k => getActions pl cfg (order k)) :=
  fun k _ _ _ _ _ h => getActions_picks (ho k) h

/-! ## No panic -/

/-- The player always has an answer: legal moves, or the empty move if there are none. -/
structure Able (R : G.S → Prop) (acts : Acts G) : Prop where
  total : ∀ k ss t, (∀ s ∈ ss, R s) → ∃ as t', acts k ss t = .ok (as, t')
  sound : Answers R (fun s a => ∃ ms, G.moves s = .ok ms ∧ (a ∈ ms ∨ ms = [] ∧ a = G.emptyMove)) acts

theorem eachGame_total {R : G.S → Prop} {f : G.S → M G.Mv} (h : ∀ s t, R s → ∃ a t', f s t = .ok (a, t')) (ss : List G.S)
    (hR : ∀ s ∈ ss, R s) (t : Tape) : ∃ as t', eachGame f ss t = .ok (as, t') := by
  induction ss generalizing t with
  | nil => exact ⟨[], t, rfl⟩
  | cons s ss ih =>
    obtain ⟨a, t1, h1⟩ := h s t (hR s (List.mem_cons_self ..))
    obtain ⟨as, t2, h2⟩ := ih (fun s hs => hR s (List.mem_cons_of_mem _ hs)) t1
    exact ⟨a :: as, t2, (M.bind_eq h1).trans ((M.bind_eq h2).trans rfl)⟩

theorem getActions_nil (pl : Player Fl) (cfg : Config) (order : Nat → List Nat) (t : Tape) :
    getActions (G := G) pl cfg order [] t = .ok ([], t) := rfl

theorem getActions_cons (pl : Player Fl) (cfg : Config) (order : Nat → List Nat) {ss : List G.S} (h : ss ≠ []) :
    getActions pl cfg order ss = (match pl.agent with
    | .model => (do
      let net ← M.lift (match pl.net with
        | some n => .ok n
        | none => .error .unwrapNone)
      let st ← alphaMctsParallel net (order ss.length) ss cfg.iterations ([] : Store G Fl)
      let roots := getRootNodes st
      let rows ← M.lift (getProbTensorParallel roots st)
      chooseAll cfg.pw roots rows : M (List G.Mv))
    | .mcts => eachGame (fun s => mctSearch Fl s (G.player s) cfg.iterations cfg.limit) ss
    | .random => eachGame randomAction ss
    | .none => M.fail .unreachableCode) := by
  unfold getActions
  rw [if_neg (by rw [List.isEmpty_iff]; exact h)]
  rfl

theorem able_random {R : G.S → Prop} (hs : Safe G R) {pl : Player Fl} (hp : pl.agent = .random) (cfg : Config)
    {order : Nat → Nat → List Nat} (ho : ∀ k n, (order k n).Perm (List.range n)) :
    Able R (fun k => getActions (G := G) pl cfg (order k)) where
  total := by
    intro k ss t hR
    by_cases he : ss = []
    · subst he
      exact ⟨[], t, rfl⟩
    · rw [getActions_cons pl cfg _ he, hp]
      refine eachGame_total (R := R) ?_ ss hR t
      intro s t hR
      obtain ⟨ms, hm⟩ := hs.moves s hR
      rcases choose_spec ms t with ⟨-, h5⟩ | ⟨b, t5, hb, h5⟩
      · exact ⟨_, _, M.bind_ok.2 ⟨ms, t, M.lift_ok.2 ⟨hm, rfl⟩, M.bind_ok.2 ⟨none, t, h5, rfl⟩⟩⟩
      · exact ⟨_, _, M.bind_ok.2 ⟨ms, t, M.lift_ok.2 ⟨hm, rfl⟩, M.bind_ok.2 ⟨some b, t5, h5, rfl⟩⟩⟩
  sound := by
    intro k ss t as t' _ h
    refine (getActions_picks (ho k) h).imp ?_
    intro s a hpick
    unfold Picks at hpick
    rw [hp] at hpick
    exact hpick

/-- For a game where a player without a legal move is unheard of, the tree search has an answer. -/
theorem able_mcts {R : G.S → Prop} (hs : Safe G R) (hstuck : ∀ s, R s → G.winner s = none → G.moves s ≠ .ok [])
    {pl : Player Fl} (hp : pl.agent = .mcts) {cfg : Config} (hi : cfg.iterations ≠ 0)
    {order : Nat → Nat → List Nat} (ho : ∀ k n, (order k n).Perm (List.range n)) :
    Able (fun s => R s ∧ G.winner s = none) (fun k => getActions (G := G) pl cfg (order k)) where
  total := by
    intro k ss t hR
    by_cases he : ss = []
    · subst he
      exact ⟨[], t, rfl⟩
    · rw [getActions_cons pl cfg _ he, hp]
      refine eachGame_total (R := fun s => R s ∧ G.winner s = none) ?_ ss hR t
      intro s t hR
      rcases search_progress (Fl := Fl) hs hR.1 (G.player s) cfg.iterations cfg.limit t with h | ⟨-, s', h1, h2, h3⟩
      · exact h
      · exact absurd h3 (hstuck s' h1 h2)
  sound := by
    intro k ss t as t' hR h
    have h1 := getActions_picks (ho k) h
    rw [List.forall₂_iff_get] at h1 ⊢
    refine ⟨h1.1, ?_⟩
    intro j hj1 hj2
    have h2 := h1.2 j hj1 hj2
    unfold Picks at h2
    rw [hp] at h2
    obtain ⟨u, u', h2⟩ := h2
    obtain ⟨ms, h3, h4⟩ := C31_legal (hR _ (List.get_mem ..)).2 (Nat.pos_of_ne_zero hi) h2
    exact ⟨ms, h3, .inl h4⟩

/-- The choices for rows of a successful search. -/
theorem chooseAll_total {R : G.S → Prop} (hc : Coded G R) {pw : Rat → Rat} (hpw : PwWarm G.actionSpace pw) (roots : List (Node G Fl))
    (rows : List Row) (hlen : rows.length = roots.length)
    (h : ∀ (j : Nat) (root : Node G Fl) (row : Row), roots[j]? = some root → rows[j]? = some row →
      R root.state ∧ ∃ ms, RowOK root.state row root ms) (t : Tape) :
    ∃ as t', chooseAll pw roots rows t = .ok (as, t') ∧
      List.Forall₂ (fun n a => ∃ ms, G.moves n.state = .ok ms ∧ (a ∈ ms ∨ ms = [] ∧ a = G.emptyMove)) roots as := by
  induction roots generalizing rows t with
  | nil => exact ⟨[], t, rfl, .nil⟩
  | cons root roots ih =>
    cases rows with
    | nil => simp at hlen
    | cons row rows =>
      obtain ⟨hR, ms, hrow⟩ := h 0 root row rfl rfl
      obtain ⟨a, t1, h1, h2⟩ : ∃ a t1, (if !(rowSum G.actionSpace (temper pw row)).isNonzero || root.children.isEmpty then
          pure G.emptyMove else (do
            let c ← weightedSelect G.actionSpace (temper pw row)
            M.lift (G.decode root.state c)) : M G.Mv) t = .ok (a, t1) ∧
          (a ∈ ms ∨ ms = [] ∧ a = G.emptyMove) := by
        by_cases hms : ms = []
        · refine ⟨G.emptyMove, t, ?_, .inr ⟨hms, rfl⟩⟩
          rw [if_pos (by rw [hrow.stuck hms]; simp)]
          rfl
        · obtain ⟨hch, hdist⟩ := hrow.live hms
          obtain ⟨hnz, hsel⟩ := temper_dist hdist hpw
          rw [if_neg (by rw [hnz]; simpa using hch)]
          obtain ⟨c, t1, hsel⟩ := hsel t
          obtain ⟨hc1, x, hc2, hc3⟩ := weightedSelect_ok hsel
          unfold temper at hc2
          cases hrc : row c with
          | none => rw [hrc] at hc2; cases hc2
          | some y =>
            rw [hrc] at hc2
            have hy : y ≠ 0 := by
              rintro rfl
              have : pw 0 = x := by simpa using hc2
              rw [hpw.zero] at this
              rw [← this] at hc3
              exact lt_irrefl _ hc3
            obtain ⟨a, ha, he⟩ := hrow.code c y hrc hy
            obtain ⟨c', e1, -, e2⟩ := hc.code root.state ms a hR hrow.moves ha
            rw [he] at e1
            obtain rfl := Except.ok.inj e1
            exact ⟨a, t1, M.bind_ok.2 ⟨c, t1, hsel, M.lift_ok.2 ⟨e2, rfl⟩⟩, .inl ha⟩
      obtain ⟨as, t2, h3, h4⟩ := ih rows (by simpa using hlen) (fun j r w hj hw => h (j + 1) r w hj hw) t1
      refine ⟨a :: as, t2, (M.bind_eq h1).trans ((M.bind_eq h3).trans rfl), .cons ⟨ms, hrow.moves, h2⟩ h4⟩

theorem model_spec {R : G.S → Prop} (hs : SafeNet G R) (hc : Coded G R) {net : Net Fl} (ha : net.alphaOk = true)
    {pl : Player Fl} (hp : pl.agent = .model) (hnet : pl.net = some net) {cfg : Config} (hpw : PwWarm G.actionSpace cfg.pw)
    (hi : cfg.iterations ≠ 0) {order : Nat → List Nat} (ho : ∀ n, (order n).Perm (List.range n)) {ss : List G.S}
    (hne : ss ≠ []) (hR : ∀ s ∈ ss, R s) (t : Tape) :
    ∃ as t', getActions pl cfg order ss t = .ok (as, t') ∧
      List.Forall₂ (fun s a => ∃ ms, G.moves s = .ok ms ∧ (a ∈ ms ∨ ms = [] ∧ a = G.emptyMove)) ss as := by
  have hpool : (ss.map fun s => (0, s)).map Prod.snd = ss := by
    rw [List.map_map]
    exact List.map_id _
  have hlen : (ss.map fun s => (0, s)).length = ss.length := List.length_map _
  obtain ⟨st, t1, roots, rows, h1, -, h3, hroots, hrl, h4⟩ := search_roots (Fl := Fl) hs hc ha
    (pool := ss.map fun s => (0, s)) (by simpa using hne) (by
      intro e he
      obtain ⟨s, h1, rfl⟩ := List.mem_map.1 he
      exact hR s h1) (games := order ss.length) (by rw [hlen]; exact ho _) hi t
  rw [hpool] at h1
  have f := alphaMctsParallel_forest (ho ss.length) h1
  have htake : roots = st.take ss.length := hroots.trans (getRootNodes_take f)
  have hflen := f.len
  have hrlen : roots.length = ss.length := by rw [htake, List.length_take]; omega
  have hroot : ∀ (j : Nat) (root : Node G Fl), roots[j]? = some root →
      ∃ s, ss[j]? = some s ∧ root.state = s ∧ getNode st j = .ok root := by
    intro j root hj
    have hjl : j < ss.length := by
      have := (List.getElem?_eq_some_iff.1 hj).1
      omega
    rw [htake, List.getElem?_take, if_pos hjl] at hj
    obtain ⟨n, q1, q2⟩ := f.state j ss[j] (List.getElem?_eq_getElem hjl)
    rw [hj] at q1
    obtain rfl := Option.some.inj q1
    exact ⟨ss[j], List.getElem?_eq_getElem hjl, q2, getNode_ok.2 hj⟩
  obtain ⟨as, t2, k1, k2⟩ := chooseAll_total (R := R) hc hpw roots rows (by rw [hrl, hlen, hrlen]) (by
    intro j root row hj hw
    obtain ⟨s, q1, q2, q3⟩ := hroot j root hj
    obtain ⟨row', root', ms, p1, p2, p3⟩ := h4 j 0 s (by rw [List.getElem?_map, q1]; rfl)
    rw [hw] at p1
    obtain rfl := Option.some.inj p1
    rw [q3] at p2
    obtain rfl := Except.ok.inj p2
    exact ⟨q2 ▸ hR s (List.mem_of_getElem? q1), ms, q2 ▸ p3⟩) t1
  refine ⟨as, t2, ?_, ?_⟩
  · rw [getActions_cons pl cfg _ hne, hp]
    rw [hnet]
    refine (M.bind_eq (show M.lift (.ok net : Res (Net Fl)) t = .ok (net, t) from rfl)).trans ?_
    refine (M.bind_eq h1).trans ?_
    rw [← hroots]
    exact (M.bind_eq (M.lift_ok.2 ⟨h3, rfl⟩)).trans k1
  · rw [List.forall₂_iff_get] at k2 ⊢
    refine ⟨by rw [← hrlen]; exact k2.1, ?_⟩
    intro j hj1 hj2
    have hj3 : j < roots.length := by omega
    have := k2.2 j hj3 hj2
    obtain ⟨s, q1, q2, -⟩ := hroot j roots[j] (List.getElem?_eq_getElem hj3)
    rw [List.getElem?_eq_getElem hj1] at q1
    obtain rfl := Option.some.inj q1
    rw [← show (roots.get ⟨j, hj3⟩).state = ss.get ⟨j, hj1⟩ from q2]
    exact this

theorem able_model {R : G.S → Prop} (hs : SafeNet G R) (hc : Coded G R) {net : Net Fl} (ha : net.alphaOk = true)
    {pl : Player Fl} (hp : pl.agent = .model) (hnet : pl.net = some net) {cfg : Config} (hpw : PwWarm G.actionSpace cfg.pw)
    (hi : cfg.iterations ≠ 0) {order : Nat → Nat → List Nat} (ho : ∀ k n, (order k n).Perm (List.range n)) :
    Able R (fun k => getActions (G := G) pl cfg (order k)) where
  total := by
    intro k ss t hR
    by_cases he : ss = []
    · subst he
      exact ⟨[], t, rfl⟩
    · obtain ⟨as, t', h, -⟩ := model_spec hs hc ha hp hnet hpw hi (ho k) he hR t
      exact ⟨as, t', h⟩
  sound := by
    intro k ss t as t' hR h
    by_cases he : ss = []
    · subst he
      obtain ⟨rfl, -⟩ := Prod.mk.inj (Except.ok.inj h)
      exact .nil
    · obtain ⟨as', t1, h1, h2⟩ := model_spec hs hc ha hp hnet hpw hi (ho k) he hR t
      have h : getActions pl cfg (order k) ss t = .ok (as, t') := h
      rw [h] at h1
      obtain ⟨rfl, -⟩ := Prod.mk.inj (Except.ok.inj h1)
      exact h2

end DieE.Versus
