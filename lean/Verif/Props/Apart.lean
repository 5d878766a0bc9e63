import Verif.Mcts.CopyRun
import Verif.Props.Net
import Verif.Train.SelfPlayLoop
import Verif.Props.Alpha
import Verif.Props.SelfPlay

/-! # C111, C112: the games of a batch -/

namespace DieE.Props.Bt
open DieE DieE.Mcts DieE.Props.A DieE.Props.S DieE.Train DieE.Net
open DieE.Props.N (Built asSearchNet)
open DieE.Props.L (demoOrders demoOrders_valid demoConfig demoConfig_ok demoSelfPlay ttt_starts)

variable {G : Game} {Fl : Floats}

/-! ## The visit shares of a copy -/

theorem mapM_comp {α β γ : Type} (F : α → β) (g : β → Res γ) (l : List α) : (l.map F).mapM g = l.mapM fun x => g (F x) := by
  induction l with
  | nil => rfl
  | cons x l ih => rw [List.map_cons, List.mapM_cons, List.mapM_cons, ih]

theorem childVisits_copy {a b : Store G Fl} {φ : Nat → Nat} (h : Copy a b φ) (w : WellFormed a) {q : Nat} {n : Node G Fl}
    (hq : a[q]? = some n) (s : G.S) : childVisits s b (n.move φ) = childVisits s a n := by
  unfold childVisits
  show (n.children.map φ).mapM _ = _
  rw [mapM_comp]
  apply mapM_congr'
  intro c hc
  obtain ⟨m, hm, -⟩ := w.down q n c hq hc
  rw [getNode_ok.2 hm, getNode_ok.2 (h.get c m hm)]
  rfl

/-- The row of the visit shares of a root. -/
theorem root_row {st : Store G Fl} {states : List G.S} (f : Forest states st) {rows : List Row}
    (hrows : getProbTensorParallel (getRootNodes st) st = .ok rows) {g : Nat} (hg : g < states.length) {n : Node G Fl}
    (hn : st[g]? = some n) :
    ∃ ws, childVisits n.state st n = .ok ws ∧ rows[g]? = some (normalise G.actionSpace (putAll zeroRow ws)) := by
  unfold getProbTensorParallel at hrows
  obtain ⟨wss, h1, h2⟩ := Res.bind_ok.1 hrows
  split at h2
  · have h3 := (Except.ok.inj h2).symm
    subst h3
    rw [getRootNodes_take f] at h1
    have key : ∀ (l : List (Node G Fl)) (wss : List (List (Nat × Val))) (g : Nat),
        l.mapM (fun n => childVisits n.state st n) = .ok wss → l[g]? = some n →
        ∃ ws, childVisits n.state st n = .ok ws ∧ wss[g]? = some ws := by
      intro l
      induction l with
      | nil => intro wss g _ h; simp at h
      | cons m l ih =>
        intro wss g hm hl
        rw [List.mapM_cons] at hm
        obtain ⟨ws, h4, h5⟩ := Res.bind_ok.1 hm
        obtain ⟨rest, h6, h7⟩ := Res.bind_ok.1 h5
        have : wss = ws :: rest := by simpa [pure, Except.pure] using h7.symm
        subst this
        cases g with
        | zero =>
          simp only [List.getElem?_cons_zero, Option.some.injEq] at hl
          subst hl
          exact ⟨ws, h4, rfl⟩
        | succ g => exact ih rest g h6 (by simpa using hl)
    obtain ⟨ws, h4, h5⟩ := key _ wss g h1 (by rw [List.getElem?_take, if_pos hg, hn])
    exact ⟨ws, h4, by rw [List.getElem?_map, h5]; rfl⟩
  · cases h2

/-! ## C112: the searches alone -/

/-- C112, weaker than intended: for a game without chance and a network that treats every row of a batch by itself, if in every
iteration either all or none of the games select a finished position, the batched search gives every game exactly the
tree that its search alone gives with the same random numbers, and no other nodes.  Missing: the iterations in which
some games select a finished position and others do not (`C112_refuted`); games with dice are in `ApartDice`. -/
theorem C112_alone_partial (hpl : Plain G) {net : Net Fl} (hr : RowWise net G) {states : List G.S} (hne : states ≠ [])
    {order : List Nat} (ho : order.Perm (List.range states.length)) {t : Tape} {iterations : Nat}
    (hstep : InStep net states iterations t) {a : Nat → Store G Fl} {t' : Nat → Tape}
    (hx : ∀ g s, states[g]? = some s → alphaMctsParallel net [0] [s] iterations [] t = .ok (a g, t' g)) :
    ∃ (b : Store G Fl) (φ : Nat → Nat → Nat) (t1 : Tape), alphaMctsParallel net order states iterations [] t = .ok (b, t1) ∧
      (∀ g, g < states.length → Copy (a g) b (φ g) ∧ φ g 0 = g ∧ t' g = t1) ∧
      ∀ j, j < b.length → ∃ g q, g < states.length ∧ q < (a g).length ∧ φ g q = j := by
  obtain ⟨b, φ, t1, h1, h2, h3⟩ := copies_search hpl hr hne ho iterations hstep hx
  exact ⟨b, φ, t1, h1, fun g hg => ⟨h2.copy g hg, h2.root g hg, h3 g hg⟩, h2.cover⟩

/-- C112, for the result of the search: under the same conditions a game gets the visit shares it would get alone. -/
theorem C112_shares_partial (hpl : Plain G) {net : Net Fl} (hr : RowWise net G) {states : List G.S} (hne : states ≠ [])
    {order : List Nat} (ho : order.Perm (List.range states.length)) {t t1 : Tape} {iterations : Nat}
    (hstep : InStep net states iterations t) {b : Store G Fl}
    (hb : alphaMctsParallel net order states iterations [] t = .ok (b, t1)) {rows : List Row}
    (hrows : getProbTensorParallel (getRootNodes b) b = .ok rows)
    (hx : ∀ s ∈ states, ∃ r, alphaMctsParallel (Fl := Fl) net [0] [s] iterations [] t = .ok r)
    {g : Nat} {s : G.S} (hg : states[g]? = some s) {a : Store G Fl} {t2 : Tape}
    (ha : alphaMctsParallel net [0] [s] iterations [] t = .ok (a, t2)) {row : List Row}
    (hrow : getProbTensorParallel (getRootNodes a) a = .ok row) : rows[g]? = row[0]? ∧ row[0]? ≠ none := by
  have hk : ∀ g : Nat, ∃ (a : Store G Fl) (t' : Tape), ∀ s : G.S, states[g]? = some s → alphaMctsParallel (Fl := Fl) net [0] [s] iterations [] t = .ok (a, t') := by
    intro g
    cases hs : states[g]? with
    | none => exact ⟨[], t, by simp⟩
    | some s =>
      obtain ⟨⟨a, t'⟩, h⟩ := hx s (List.mem_of_getElem? hs)
      exact ⟨a, t', fun s' hs' => by
        have : s = s' := by simpa using hs'
        subst this
        exact h⟩
  choose a' t' hk using hk
  obtain ⟨b', φ, t1', h1, h2, h3⟩ := copies_search hpl hr hne ho iterations hstep hk
  rw [hb] at h1
  have := Except.ok.inj h1
  simp only [Prod.mk.injEq] at this
  obtain ⟨rfl, rfl⟩ := this
  have e := hk g s hg
  rw [ha] at e
  have := Except.ok.inj e
  simp only [Prod.mk.injEq] at this
  obtain ⟨e1, -⟩ := this
  have hgl : g < states.length := (List.getElem?_eq_some_iff.1 hg).1
  have fb := alphaMctsParallel_forest ho hb
  have fa := alphaMctsParallel_forest (states := [s]) (order := [0]) (by simp) ha
  have hc := h2.copy g hgl
  rw [← e1] at hc
  obtain ⟨n, hn, -⟩ := fa.state 0 s rfl
  have hn' := hc.get 0 n hn
  rw [h2.root g hgl] at hn'
  obtain ⟨ws, k1, k2⟩ := root_row fb hrows hgl hn'
  obtain ⟨ws', k3, k4⟩ := root_row fa hrow (g := 0) (by simp) hn
  rw [childVisits_copy hc fa.wf hn] at k1
  have k1' : childVisits n.state a n = .ok ws := k1
  rw [k3] at k1'
  cases Except.ok.inj k1'
  exact ⟨k2.trans k4.symm, by rw [k4]; simp⟩

/-! ## C111: games in the same position -/

theorem inStep_same (net : Net Fl) (n : Nat) (s : G.S) (iterations : Nat) (t : Tape) :
    InStep net (List.replicate n s) iterations t := by
  intro i _
  have hs : ∀ (g : Nat) (s' : G.S), (List.replicate n s)[g]? = some s' → s' = s := by
    intro g s' h
    exact List.eq_of_mem_replicate (List.mem_of_getElem? h)
  by_cases hc : ∃ (st : Store G Fl) (t1 : Tape) (k : Nat) (kn : Node G Fl),
      alphaMctsParallel net [0] [s] i [] t = .ok (st, t1) ∧ Leaf st 0 k kn ∧ G.winner kn.state = none
  · obtain ⟨st, t1, k, kn, h1, h2, h3⟩ := hc
    refine .inl fun g s' st' t1' k' kn' hg h4 h5 => ?_
    rw [hs g s' hg, h1] at h4
    have := Except.ok.inj h4
    simp only [Prod.mk.injEq] at this
    obtain ⟨rfl, rfl⟩ := this
    obtain ⟨-, rfl⟩ := h5.unique h2
    exact h3
  · refine .inr fun g s' st' t1' k' kn' hg h4 h5 h6 => hc ⟨st', t1', k', kn', ?_, h5, h6⟩
    rw [hs g s' hg] at h4
    exact h4

/-- C111: for a game without chance and a network that treats every row of a batch by itself, a batch of games in the same
position gets one and the same tree for every game: the one the search of a single game makes with the same random
numbers. -/
theorem C111_same (hpl : Plain G) {net : Net Fl} (hr : RowWise net G) {n : Nat} (hn : 0 < n) {s : G.S} {order : List Nat}
    (ho : order.Perm (List.range n)) {t t' : Tape} {iterations : Nat} {a : Store G Fl}
    (ha : alphaMctsParallel net [0] [s] iterations [] t = .ok (a, t')) :
    ∃ (b : Store G Fl) (φ : Nat → Nat → Nat), alphaMctsParallel net order (List.replicate n s) iterations [] t = .ok (b, t') ∧
      (∀ g, g < n → Copy a b (φ g) ∧ φ g 0 = g) ∧
      ∀ j, j < b.length → ∃ g q, g < n ∧ q < a.length ∧ φ g q = j := by
  obtain ⟨b, φ, t1, h1, h2, h3⟩ := C112_alone_partial hpl hr (states := List.replicate n s)
    (by intro h; have := congrArg List.length h; simp at this; omega) (order := order) (by simpa using ho)
    (inStep_same net n s iterations t) (a := fun _ => a) (t' := fun _ => t') (by
      intro g s' hs
      rw [List.eq_of_mem_replicate (List.mem_of_getElem? hs)]
      exact ha)
  simp only [List.length_replicate] at h2 h3
  have := (h2 0 hn).2.2
  subst this
  exact ⟨b, φ, h1, fun g hg => ⟨(h2 g hg).1, (h2 g hg).2.1⟩, h3⟩

/-- C111, for the result of the search: all games get the same visit shares. -/
theorem C111_rows (hpl : Plain G) {net : Net Fl} (hr : RowWise net G) {n : Nat} (hn : 0 < n) {s : G.S} {order : List Nat}
    (ho : order.Perm (List.range n)) {t t' t1 : Tape} {iterations : Nat} {a b : Store G Fl}
    (ha : alphaMctsParallel net [0] [s] iterations [] t = .ok (a, t1))
    (hb : alphaMctsParallel net order (List.replicate n s) iterations [] t = .ok (b, t')) {rows : List Row}
    (hrows : getProbTensorParallel (getRootNodes b) b = .ok rows) {i j : Nat} (hi : i < n) (hj : j < n) :
    rows[i]? = rows[j]? ∧ rows[i]? ≠ none := by
  obtain ⟨b', φ, h1, h2, -⟩ := C111_same hpl hr hn ho ha
  rw [hb] at h1
  have := Except.ok.inj h1
  simp only [Prod.mk.injEq] at this
  obtain ⟨rfl, rfl⟩ := this
  have ho' : order.Perm (List.range (List.replicate n s).length) := by simpa using ho
  have fb := alphaMctsParallel_forest ho' hb
  have fa := alphaMctsParallel_forest (states := [s]) (order := [0]) (by simp) ha
  obtain ⟨m, hm, -⟩ := fa.state 0 s rfl
  have key : ∀ g, g < n → ∃ ws, childVisits m.state a m = .ok ws ∧
      rows[g]? = some (normalise G.actionSpace (putAll zeroRow ws)) := by
    intro g hg
    obtain ⟨hc, hr0⟩ := h2 g hg
    have hm' := hc.get 0 m hm
    rw [hr0] at hm'
    obtain ⟨ws, k1, k2⟩ := root_row fb hrows (by simpa using hg) hm'
    rw [childVisits_copy hc fa.wf hm] at k1
    exact ⟨ws, k1, k2⟩
  obtain ⟨ws, k1, k2⟩ := key i hi
  obtain ⟨ws', k3, k4⟩ := key j hj
  rw [k1] at k3
  cases Except.ok.inj k3
  exact ⟨k2.trans k4.symm, by rw [k2]; simp⟩

/-! ## TicTacToe and the network of the program -/

theorem ttt_plain (pf : Profile) : Plain (TTT.game pf) := fun s a => ⟨TTT.applyMove pf s a, fun _ => rfl⟩

/-- The network of the program treats every row of a batch by itself. -/
theorem rowWise_tictactoe (A : Arith) {Fl : Floats} (conv : A.F → Fl.F) {net : ResNet} {vs : VarStore A.F}
    (hb : Built tttSizes net vs) (rest : Mcts.Net Fl) (pf : Profile) :
    RowWise (asSearchNet A conv net vs rest) (TTT.game pf) := by
  refine ⟨⟨[3, 3, 3], ?_⟩, ?_⟩
  · intro s x hx
    obtain ⟨y, h1, h2⟩ := N.ttt_tensor s
    have : x = y := Except.ok.inj (hx.symm.trans h1)
    rw [this]
    exact h2
  · intro (ss : List TTT.State) ts x hts hx g u y hu hy
    have hts : ss.mapM TTT.asTensor = .ok ts := hts
    have hg : g < ts.length := (List.getElem?_eq_some_iff.1 hu).1
    obtain ⟨ts', e1, e2⟩ := N.mapM_ok (f := TTT.asTensor) ss fun s _ => (N.ttt_tensor s).imp fun _ => And.left
    have e3 : ts' = ts := Except.ok.inj (e1.symm.trans hts)
    subst e3
    have hlen := e2.length_eq
    obtain ⟨s, hs⟩ : ∃ s, ss[g]? = some s := ⟨ss[g], List.getElem?_eq_getElem (by omega)⟩
    have hsu := e2.get (i := g) (by omega) hg
    rw [List.get_eq_getElem, List.get_eq_getElem, (List.getElem?_eq_some_iff.1 hu).2, (List.getElem?_eq_some_iff.1 hs).2] at hsu
    have hss : ss ≠ [] := by rintro rfl; simp at hs
    obtain ⟨ts2, x2, f1, f2, f3⟩ := N.C59_tictactoe A hb (ss := ss) hss
    have : ts2 = ts' := Except.ok.inj (f1.symm.trans hts)
    subst this
    have : x2 = x := Except.ok.inj (f2.symm.trans hx)
    subst this
    obtain ⟨ts3, x3, g1, g2, g3⟩ := N.C59_tictactoe A hb (ss := [s]) (by simp)
    have h1 : [s].mapM TTT.asTensor = .ok [u] := by
      rw [List.mapM_cons, hsu]
      rfl
    have : ts3 = [u] := Except.ok.inj (g1.symm.trans h1)
    subst this
    have : x3 = y := Except.ok.inj (g2.symm.trans hy)
    subst this
    obtain ⟨⟨p, v, a1, a2, a3⟩, -⟩ := f3 false
    obtain ⟨⟨q, w, b1, b2, b3⟩, -⟩ := g3 false
    obtain ⟨z, c1, c2⟩ := (N.C59_single A).1 hb s
    have : z = u := Except.ok.inj (c1.symm.trans hsu)
    subst this
    obtain ⟨⟨r, o, d1, -⟩, -⟩ := c2 false
    obtain ⟨k1, k2⟩ := N.C68_tictactoe A hb hs hsu hts hx a1 d1
    obtain ⟨k3, k4⟩ := N.C68_tictactoe A hb (ss := [s]) (j := 0) rfl hsu h1 hy b1 d1
    constructor
    · intro c
      show (match net.forward A vs false (mapT A.ofInt x2) with
        | .ok (p, _) => if c < p.shape.getD 1 0 then conv (p.at' [g, c]) else conv (A.ofInt 0)
        | .error _ => rest.policy x2 g c) = (match net.forward A vs false (mapT A.ofInt x3) with
        | .ok (p, _) => if c < p.shape.getD 1 0 then conv (p.at' [0, c]) else conv (A.ofInt 0)
        | .error _ => rest.policy x3 0 c)
      rw [a1, b1]
      simp only [a2, b2]
      by_cases hc : c < 9
      · have : c < [ss.length, 9].getD 1 0 := hc
        have : c < [[s].length, 9].getD 1 0 := hc
        rw [if_pos ‹_›, if_pos ‹_›, k1 c hc, k3 c hc]
      · have : ¬ c < [ss.length, 9].getD 1 0 := hc
        have : ¬ c < [[s].length, 9].getD 1 0 := hc
        rw [if_neg ‹_›, if_neg ‹_›]
    · show (match net.forward A vs false (mapT A.ofInt x2) with
        | .ok (_, v) => conv (v.at' [g, 0])
        | .error _ => rest.eval x2 g) = (match net.forward A vs false (mapT A.ofInt x3) with
        | .ok (_, v) => conv (v.at' [0, 0])
        | .error _ => rest.eval x3 0)
      rw [a1, b1]
      simp only
      rw [k2 0 (by decide), k4 0 (by decide)]

/-! ## Self-play -/

theorem playState_turns {cfg : SelfPlayConfig} {row : Row} {root : Node G Fl} {i : Nat} {s s' : G.S} {sp sp' : SelfPlay G}
    {t t' : Tape} (h : playState cfg row root i s sp t = .ok ((s', sp'), t')) :
    ∃ tn : Turn G, (∀ u ps a u', tn = .move u ps a u' → ps = row) ∧
      ∀ j, sp'.turns j = if j = i then sp.turns i ++ [tn] else sp.turns j := by
  have hround : ∀ {sp1 sp2 : SelfPlay G}, addRound i sp1 = .ok sp2 → sp2.turns = sp1.turns := by
    intro sp1 sp2 h
    obtain ⟨r, -, h⟩ := Res.bind_ok.1 h
    cases h
    rfl
  unfold playState at h
  obtain ⟨sp1, t1, h1, h⟩ := M.bind_ok.1 h
  have e1 : sp1.turns = sp.turns := by
    obtain ⟨h1, -⟩ := M.lift_ok.1 h1
    unfold checkLimit at h1
    obtain ⟨r, -, h1⟩ := Res.bind_ok.1 h1
    split at h1
    · obtain ⟨m, -, h1⟩ := Res.bind_ok.1 h1
      cases h1
      rfl
    · cases h1
      rfl
  split at h
  · obtain ⟨sp2, t2, h2, h⟩ := M.bind_ok.1 h
    have e2 := hround (M.lift_ok.1 h2).1
    obtain ⟨u, t3, h3, h⟩ := M.bind_ok.1 h
    have hp := M.pure_ok.1 h
    simp only [Prod.mk.injEq] at hp
    obtain ⟨⟨-, rfl⟩, rfl⟩ := hp
    refine ⟨.skip s u, (fun _ _ _ _ hc => by cases hc), fun j => ?_⟩
    show (if j = i then sp2.turns i ++ _ else sp2.turns j) = _
    rw [e2, e1]
  · obtain ⟨c, t2, -, h2⟩ := M.bind_ok.1 h
    obtain ⟨x, t3, -, h3⟩ := M.bind_ok.1 h2
    obtain ⟨mem, t4, -, h4⟩ := M.bind_ok.1 h3
    obtain ⟨a, t5, -, h5⟩ := M.bind_ok.1 h4
    obtain ⟨ms, t6, -, h6⟩ := M.bind_ok.1 h5
    obtain ⟨_, t7, -, h7⟩ := M.bind_ok.1 h6
    obtain ⟨u, t8, -, h8⟩ := M.bind_ok.1 h7
    obtain ⟨sp2, t9, h9, h10⟩ := M.bind_ok.1 h8
    have e2 : sp2.turns = sp1.turns := (hround (M.lift_ok.1 h9).1).trans rfl
    refine ⟨.move s row a u, (fun _ _ _ _ hc => by cases hc; rfl), ?_⟩
    cases hw : G.winner u with
    | some w =>
      simp only [hw] at h10
      obtain ⟨mem2, t10, -, h11⟩ := M.bind_ok.1 h10
      obtain ⟨-, rfl⟩ := Prod.mk.inj (Prod.mk.inj (M.pure_ok.1 h11)).1
      intro j
      show (if j = i then sp2.turns i ++ _ else sp2.turns j) = _
      rw [e2, e1]
    | none =>
      simp only [hw] at h10
      obtain ⟨-, rfl⟩ := Prod.mk.inj (Prod.mk.inj (M.pure_ok.1 h10)).1
      intro j
      show (if j = i then sp2.turns i ++ _ else sp2.turns j) = _
      rw [e2, e1]

theorem playStates_turns {cfg : SelfPlayConfig} {rows : List Row} {st : Store G Fl} {row : Row} (pool : List (Nat × G.S)) (k : Nat)
    (hrow : ∀ j, k ≤ j → j < k + pool.length → rows[j]? = some row) (sp : SelfPlay G) (t : Tape)
    {pool' : List (Nat × G.S)} {sp' : SelfPlay G} {t' : Tape}
    (h : playStates cfg rows st k pool sp t = .ok ((pool', sp'), t')) (j : Nat) :
    ∃ l, sp'.turns j = sp.turns j ++ l ∧ (∀ u ps a u', Turn.move u ps a u' ∈ l → ps = temper cfg.pw row) ∧
      (j ∈ pool.map Prod.fst → l ≠ []) := by
  induction pool generalizing k sp t pool' with
  | nil =>
    have hp := M.pure_ok.1 h
    simp only [Prod.mk.injEq] at hp
    obtain ⟨⟨-, rfl⟩, rfl⟩ := hp
    exact ⟨[], by simp, by simp, by simp⟩
  | cons e pool ih =>
    obtain ⟨i, s⟩ := e
    unfold playStates at h
    obtain ⟨r, t1, h1, h⟩ := M.bind_ok.1 h
    rw [hrow k (Nat.le_refl _) (by simp)] at h1
    obtain ⟨h1, -⟩ := M.lift_ok.1 h1
    have h1 : row = r := Except.ok.inj h1
    subst h1
    obtain ⟨root, t2, -, h⟩ := M.bind_ok.1 h
    obtain ⟨⟨s1, sp1⟩, t3, h3, h⟩ := M.bind_ok.1 h
    obtain ⟨⟨p1, sp2⟩, t4, h4, h⟩ := M.bind_ok.1 h
    have hp := M.pure_ok.1 h
    simp only [Prod.mk.injEq] at hp
    obtain ⟨⟨-, rfl⟩, rfl⟩ := hp
    obtain ⟨tn, g1, g2⟩ := playState_turns h3
    obtain ⟨l, k1, k2, k3⟩ := ih (k + 1) (fun j hj hj2 => hrow j (by omega) (by simp at hj2 ⊢; omega)) sp1 t3 h4
    by_cases hji : j = i
    · subst hji
      refine ⟨tn :: l, ?_, ?_, fun _ => by simp⟩
      · rw [k1, g2, if_pos rfl, List.append_assoc]
        rfl
      · intro u ps a u' hm
        rcases List.mem_cons.1 hm with hm | hm
        · exact g1 u ps a u' hm.symm
        · exact k2 u ps a u' hm
    · refine ⟨l, ?_, k2, fun hm => k3 ?_⟩
      · rw [k1, g2, if_neg hji]
      · simp only [List.map_cons, List.mem_cons] at hm
        rcases hm with hm | hm
        · exact absurd hm hji
        · exact hm

theorem playStates_grow {cfg : SelfPlayConfig} {rows : List Row} {st : Store G Fl} (pool : List (Nat × G.S)) (k : Nat)
    (sp : SelfPlay G) (t : Tape) {pool' : List (Nat × G.S)} {sp' : SelfPlay G} {t' : Tape}
    (h : playStates cfg rows st k pool sp t = .ok ((pool', sp'), t')) (j : Nat) :
    ∃ l, sp'.turns j = sp.turns j ++ l := by
  induction pool generalizing k sp t pool' with
  | nil =>
    have hp := M.pure_ok.1 h
    simp only [Prod.mk.injEq] at hp
    obtain ⟨⟨-, rfl⟩, rfl⟩ := hp
    exact ⟨[], by simp⟩
  | cons e pool ih =>
    obtain ⟨i, s⟩ := e
    unfold playStates at h
    obtain ⟨r, t1, h1, h⟩ := M.bind_ok.1 h
    obtain ⟨root, t2, -, h⟩ := M.bind_ok.1 h
    obtain ⟨⟨s1, sp1⟩, t3, h3, h⟩ := M.bind_ok.1 h
    obtain ⟨⟨p1, sp2⟩, t4, h4, h⟩ := M.bind_ok.1 h
    have hp := M.pure_ok.1 h
    simp only [Prod.mk.injEq] at hp
    obtain ⟨⟨-, rfl⟩, rfl⟩ := hp
    obtain ⟨tn, g1, g2⟩ := playState_turns h3
    obtain ⟨l, k1⟩ := ih (k + 1) sp1 t3 h4
    by_cases hji : j = i
    · subst hji
      exact ⟨tn :: l, by rw [k1, g2, if_pos rfl, List.append_assoc]; rfl⟩
    · exact ⟨l, by rw [k1, g2, if_neg hji]⟩

theorem selfRound_inv {net : Net Fl} {cfg : SelfPlayConfig} {games : List Nat} {pool pool' : List (Nat × G.S)} {sp sp' : SelfPlay G}
    {t t' : Tape} (h : selfRound net cfg games pool sp t = .ok ((pool', sp'), t')) :
    ∃ (st : Store G Fl) (t1 : Tape) (roots : List (Node G Fl)) (rows : List Row) (p : List (Nat × G.S)),
      alphaMctsParallel net games (pool.map Prod.snd) cfg.iterations [] t = .ok (st, t1) ∧
      (List.range pool.length).mapM (getNode st) = .ok roots ∧ getProbTensorParallel roots st = .ok rows ∧
      playStates cfg rows st 0 pool { sp with remove := [] } t1 = .ok ((p, sp'), t') := by
  unfold selfRound at h
  obtain ⟨st, t1, h1, k1⟩ := M.bind_ok.1 h
  obtain ⟨roots, t2, h2, k2⟩ := M.bind_ok.1 k1
  obtain ⟨h2', rfl⟩ := M.lift_ok.1 h2
  obtain ⟨rows, t3, h3, k3⟩ := M.bind_ok.1 k2
  obtain ⟨h3', rfl⟩ := M.lift_ok.1 h3
  obtain ⟨⟨p, sp2⟩, t4, h4, k4⟩ := M.bind_ok.1 k3
  have hp := M.pure_ok.1 k4
  simp only [Prod.mk.injEq] at hp
  obtain ⟨⟨-, rfl⟩, rfl⟩ := hp
  exact ⟨st, _, roots, rows, p, h1, h2', h3', h4⟩

theorem selfLoop_grow {net : Net Fl} {cfg : SelfPlayConfig} {o : Orders G} (f k : Nat) (pool : List (Nat × G.S)) (sp : SelfPlay G)
    (t : Tape) {sp' : SelfPlay G} {t' : Tape} (h : selfLoop net cfg o f k pool sp t = .ok (sp', t')) (j : Nat) :
    ∃ l, sp'.turns j = sp.turns j ++ l := by
  induction f generalizing k pool sp t with
  | zero =>
    unfold selfLoop at h
    split at h
    · obtain rfl := (Prod.mk.inj (M.pure_ok.1 h)).1
      exact ⟨[], by simp⟩
    · cases h
  | succ f ih =>
    unfold selfLoop at h
    split at h
    · obtain rfl := (Prod.mk.inj (M.pure_ok.1 h)).1
      exact ⟨[], by simp⟩
    · obtain ⟨⟨p, sp1⟩, t1, h1, h⟩ := M.bind_ok.1 h
      obtain ⟨st, t2, roots, rows, p1, -, -, -, h4⟩ := selfRound_inv h1
      obtain ⟨l, e1⟩ := playStates_grow _ _ _ _ h4 j
      obtain ⟨l2, e2⟩ := ih (k + 1) p sp1 t1 h
      exact ⟨l ++ l2, by rw [e2, e1, List.append_assoc]⟩

theorem startAll_new (hd : G.deterministic = true) (is : List Nat) (t : Tape) :
    startAll G is t = .ok (is.map fun i => (i, G.new), t) := by
  induction is generalizing t with
  | nil => rfl
  | cons i is ih =>
    unfold startAll
    refine (M.bind_eq (a := G.new) (t' := t) (by unfold start; rw [if_pos hd]; rfl)).trans ?_
    exact (M.bind_eq (ih t)).trans rfl

/-- C111, for self-play: for a game without chance, however many games are played at a time, all of them choose their
first move with the same probabilities, and the same position and probabilities are recorded first in every game. -/
theorem C111_selfplay {R : G.S → Prop} (hs : SafeNet G R) (hc : Coded G R) (hst : Starts G R) (hd : G.deterministic = true)
    (hpl : Plain G) {net : Net Fl} (hr : RowWise net G) (ha : net.alphaOk = true) (cfg : SelfPlayConfig)
    (hpw : PwWarm G.actionSpace cfg.pw) (hi : cfg.iterations ≠ 0) {o : Orders G} (ho : o.Valid) {n f : Nat}
    (hf : cfg.limit + 1 ≤ f) {ms : List G.Mv} (hm : G.moves G.new = .ok ms) (hne : ms ≠ []) {x : Tensor Int}
    (hx : G.tensor G.new = .ok x) {t t' : Tape} {sp : SelfPlay G} (h : selfPlayRun net cfg o n f t = .ok (sp, t')) :
    ∃ ps : Row, ∀ i, i < n → (∃ a s' l, sp.turns i = .move G.new ps a s' :: l) ∧
      ∃ mem, sp.mems[i]? = some ({ outcome := G.player G.new, ps := ps, state := x } :: mem) := by
  by_cases hn : n = 0
  · exact ⟨zeroRow, fun i hi => by omega⟩
  obtain ⟨sp0, t0, init, D, e0, -, -, -, e1⟩ := selfPlayRun_spec hs hc hst ha cfg hpw.toPwOK hi ho n f hf t
  rw [h] at e0
  have e0 := Except.ok.inj e0
  simp only [Prod.mk.injEq] at e0
  obtain ⟨rfl, -⟩ := e0
  have hst1 : ∀ (t1 t2 : Tape) (s : G.S), start G t1 = .ok (s, t2) → s = G.new := by
    intro t1 t2 s h
    unfold start at h
    rw [if_pos hd] at h
    obtain rfl := (Prod.mk.inj (M.pure_ok.1 h)).1
    rfl
  have hnew : R G.new := by
    obtain ⟨s, t1, h1, h2⟩ := hst t
    rw [hst1 _ _ _ h1] at h2
    exact h2
  unfold selfPlayRun at h
  obtain ⟨pool, t1, h0, h⟩ := M.bind_ok.1 h
  rw [startAll_new hd] at h0
  obtain ⟨h1, rfl⟩ := Prod.mk.inj (Except.ok.inj h0)
  obtain ⟨f, rfl⟩ : ∃ f', f = f' + 1 := ⟨f - 1, by omega⟩
  unfold selfLoop at h
  have hpool : pool.length = n := by rw [← h1]; simp
  rw [if_neg (by intro hp; rw [List.isEmpty_iff.1 hp] at hpool; exact hn hpool.symm)] at h
  obtain ⟨⟨p, sp1⟩, t2, h2, h⟩ := M.bind_ok.1 h
  have hperm := ho.map 0 pool
  have hlen : (o.map 0 pool).length = n := by rw [hperm.length_eq, hpool]
  have hsame : (o.map 0 pool).map Prod.snd = List.replicate n G.new := by
    rw [List.eq_replicate_iff]
    refine ⟨by rw [List.length_map, hlen], fun s hs => ?_⟩
    obtain ⟨e, he, rfl⟩ := List.mem_map.1 hs
    have := hperm.mem_iff.1 he
    rw [← h1] at this
    obtain ⟨i, -, rfl⟩ := List.mem_map.1 this
    rfl
  obtain ⟨st, t3, roots, rows, p1, g1, g2, g3, g4⟩ := selfRound_inv h2
  have hset : (o.set 0 pool.length).Perm (List.range n) := by rw [hpool]; exact ho.set 0 n
  have hset' : (o.set 0 pool.length).Perm (List.range (o.map 0 pool).length) := by rw [hlen]; exact hset
  obtain ⟨st', t3', roots', rows', k1, k2, k3, k4, k5, -⟩ := search_roots (Fl := Fl) hs hc ha (pool := o.map 0 pool)
    (fun hp => by rw [hp] at hlen; exact hn hlen.symm) (fun e he => by
      have := hperm.mem_iff.1 he
      rw [← h1] at this
      obtain ⟨i, -, rfl⟩ := List.mem_map.1 this
      exact hnew) hset' (iterations := cfg.iterations) hi t
  rw [g1] at k1
  have k1 := Except.ok.inj k1
  simp only [Prod.mk.injEq] at k1
  obtain ⟨rfl, rfl⟩ := k1
  rw [g2] at k2
  cases Except.ok.inj k2
  rw [g3] at k3
  cases Except.ok.inj k3
  rw [hsame] at g1
  rw [k4] at g3
  obtain ⟨a, ta, ha1, -⟩ := alphaMctsParallel_progress (Fl := Fl) hs ha (states := [G.new]) (by simp) (by simpa using hnew)
    (order := [0]) (by simp) cfg.iterations t
  have hrows : ∀ j, j < n → rows[j]? = rows[0]? ∧ rows[j]? ≠ none := fun j hj =>
    C111_rows hpl hr (Nat.pos_of_ne_zero hn) hset ha1 g1 g3 hj (Nat.pos_of_ne_zero hn)
  obtain ⟨row, hrow⟩ : ∃ row, rows[0]? = some row := Option.ne_none_iff_exists'.1 (hrows 0 (Nat.pos_of_ne_zero hn)).2
  refine ⟨temper cfg.pw row, fun i hin => ?_⟩
  obtain ⟨l, q1, q2, q3⟩ := playStates_turns (row := row) _ 0
    (fun j _ hj => by rw [(hrows j (by rw [hlen] at hj; omega)).1, hrow]) _ _ g4 i
  have hil : i ∈ (o.map 0 pool).map Prod.fst := by
    rw [(hperm.map Prod.fst).mem_iff, ← h1, List.map_map]
    simpa using hin
  obtain ⟨l2, q4⟩ := selfLoop_grow _ _ _ _ _ h i
  have q5 : sp.turns i = l ++ l2 := by rw [q4, q1]; rfl
  obtain ⟨tn, l', rfl⟩ := List.exists_cons_of_ne_nil (q3 hil)
  obtain ⟨⟨s1, s2, hst2⟩, ⟨s, hlog⟩, -, -, hmem⟩ := e1 i hin
  rw [hst1 _ _ _ hst2] at hlog
  have hfirst : ∀ (l : List (Turn G)) (s : G.S), Log G cfg.pw G.new l s → ∀ tn l', l = tn :: l' → tn.before = G.new ∧ tn.Fair cfg.pw := by
    intro l s hl
    induction hl with
    | nil => intro tn l' h; cases h
    | @snoc l m tt hl hb hfr ih =>
      intro tn l' h
      cases l with
      | nil =>
        simp only [List.nil_append, List.cons.injEq] at h
        obtain ⟨rfl, -⟩ := h
        refine ⟨?_, hfr⟩
        rw [hb]
        generalize hg : ([] : List (Turn G)) = l0 at hl
        cases hl with
        | nil => rfl
        | snoc => simp at hg
      | cons t0 l0 =>
        simp only [List.cons_append, List.cons.injEq] at h
        obtain ⟨rfl, -⟩ := h
        exact ih t0 l0 rfl
  obtain ⟨b1, b2⟩ := hfirst _ s hlog tn (l' ++ l2) (by rw [q5]; rfl)
  cases tn with
  | skip u u' =>
    rcases b2.1 with b2 | b2
    · have b1 : u = G.new := b1
      rw [b1, hm] at b2
      exact absurd (Except.ok.inj b2) hne
    · exact absurd b2 (not_vanishes hpw)
  | move u ps a u' =>
    have b1 : u = G.new := b1
    subst b1
    have := q2 _ ps a u' (List.mem_cons_self ..)
    subst this
    refine ⟨⟨a, u', l' ++ l2, by rw [q5]; rfl⟩, frags id (l' ++ l2), ?_⟩
    rw [hmem, q5]
    show some (frags id ([Turn.move G.new _ a u'] ++ (l' ++ l2))) = _
    rw [frags_append, frags_single]
    have hfr : fragOf id (Turn.move G.new (temper cfg.pw row) a u') =
        [{ outcome := G.player G.new, ps := temper cfg.pw row, state := x }] := by
      show (match G.tensor G.new with | .ok x => _ | .error _ => _) = _
      rw [hx]
      rfl
    rw [hfr]
    rfl

/-! ## TicTacToe -/

/-- C111 for the TicTacToe search with the network of the program: any number of games in the same position, with any weights
and any random numbers, get the same visit shares. -/
theorem C111_tictactoe (A : Arith) {Fl : Floats} (conv : A.F → Fl.F) {net : ResNet} {vs : VarStore A.F}
    (hb : Built tttSizes net vs) {rest : Mcts.Net Fl} (ha : rest.alphaOk = true) (pf : Profile) {n : Nat} (hn : 0 < n)
    {s : TTT.State} (hs : s.player = 1 ∨ s.player = -1) {order : List Nat} (ho : order.Perm (List.range n)) (iterations : Nat)
    (t : Tape) : ∃ (b : Store (TTT.game pf) Fl) (t' : Tape) (rows : List Row),
      alphaMctsParallel (asSearchNet A conv net vs rest) order (List.replicate n s) iterations [] t = .ok (b, t') ∧
      getProbTensorParallel (getRootNodes b) b = .ok rows ∧ rows.length = n ∧
      ∀ i j, i < n → j < n → rows[i]? = rows[j]? := by
  have hr := rowWise_tictactoe A conv hb rest pf
  have hr1 : ∀ u ∈ List.replicate n s, u.player = 1 ∨ u.player = -1 := fun u hu => List.eq_of_mem_replicate hu ▸ hs
  have hne : List.replicate n s ≠ [] := by
    intro h
    have := congrArg List.length h
    simp at this
    omega
  have ho' : order.Perm (List.range (List.replicate n s).length) := by simpa using ho
  obtain ⟨b, t', h1, -⟩ := alphaMctsParallel_progress (G := TTT.game pf) (Fl := Fl) (ttt_safeNet pf)
    (net := asSearchNet A conv net vs rest) ha hne hr1 ho' iterations t
  obtain ⟨rows, g1, g2, -⟩ := C39_search (net := asSearchNet A conv net vs rest) (ttt_safeNet pf) (ttt_coded pf) ha hne hr1 ho' h1
  obtain ⟨a, ta, k1, -⟩ := alphaMctsParallel_progress (G := TTT.game pf) (Fl := Fl) (ttt_safeNet pf)
    (net := asSearchNet A conv net vs rest) ha (states := [s]) (by simp)
    (fun u hu => List.mem_singleton.1 hu ▸ hs) (order := [0]) (List.Perm.refl [0]) iterations t
  exact ⟨b, t', rows, h1, g1, g2.trans List.length_replicate, fun i j hi hj => (C111_rows (ttt_plain pf) hr hn ho k1 h1 g1 hi hj).1⟩

theorem new_moves : TTT.getValidMoves TTT.new ≠ [] := by decide +kernel

/-- C111 for the self-play of TicTacToe with the network of the program. -/
theorem C111_opening (A : Arith) {Fl : Floats} (conv : A.F → Fl.F) {net : ResNet} {vs : VarStore A.F}
    (hb : Built tttSizes net vs) {rest : Mcts.Net Fl} (ha : rest.alphaOk = true) (pf : Profile) (cfg : SelfPlayConfig)
    (hpw : PwWarm 9 cfg.pw) (hi : cfg.iterations ≠ 0) {o : Orders (TTT.game pf)} (ho : o.Valid) (n : Nat) (t : Tape) :
    ∃ (sp : SelfPlay (TTT.game pf)) (t' : Tape) (ps : Row) (x : Tensor Int),
      selfPlayRun (asSearchNet A conv net vs rest) cfg o n (cfg.limit + 1) t = .ok (sp, t') ∧ TTT.asTensor TTT.new = .ok x ∧
      ∀ i, i < n → (∃ a s' l, sp.turns i = .move TTT.new ps a s' :: l) ∧
        ∃ mem, sp.mems[i]? = some ({ outcome := -1, ps := ps, state := x } :: mem) := by
  obtain ⟨sp, t', init, D, h, -⟩ := selfPlayRun_spec (ttt_safeNet pf) (ttt_coded pf) (ttt_starts pf)
    (net := asSearchNet A conv net vs rest) ha cfg hpw.toPwOK hi ho n (cfg.limit + 1) (Nat.le_refl _) t
  obtain ⟨x, hx, -⟩ := N.ttt_tensor TTT.new
  obtain ⟨ps, h1⟩ := C111_selfplay (G := TTT.game pf) (ttt_safeNet pf) (ttt_coded pf) (ttt_starts pf) rfl (ttt_plain pf)
    (rowWise_tictactoe A conv hb rest pf) ha cfg hpw hi ho (Nat.le_refl _) (ms := TTT.getValidMoves TTT.new) rfl
    new_moves hx h
  exact ⟨sp, t', ps, x, h, hx, h1⟩

/-! ## Sample data -/

theorem demo_rowWise : RowWise demoNet (TTT.game .debug) := by
  refine ⟨⟨[3, 3, 3], ?_⟩, fun _ _ _ _ _ _ _ _ _ _ => ⟨fun _ => rfl, rfl⟩⟩
  intro s x hx
  obtain ⟨y, h1, h2⟩ := N.ttt_tensor s
  have : x = y := Except.ok.inj (hx.symm.trans h1)
  rw [this]
  exact h2

/-- A position with two free cells. -/
def two : TTT.State := { player := 1, board := #v[1, -1, 1, 1, -1, -1, -1, 0, 0], id := 0 }

/-- The visit shares of the games of a sample search. -/
def demoRows (order : List Nat) (states : List TTT.State) (iterations : Nat) : Option (List (List Val)) :=
  ((demoRun order states iterations).toOption.bind fun r => (getProbTensorParallel (getRootNodes r.1) r.1).toOption).map
    fun rows => rows.map fun row => (List.range 9).map row

/-- The situation of `C111_same`, `C111_rows`, `C112_alone_partial` and `C112_shares_partial` exists: the search of a batch of
three games in the same position, and the search of one of them. -/
theorem demo_rows : demoRows [2, 0, 1] [two, two, two] 3 = some (List.replicate 3 ((List.replicate 7 (some 0)) ++ [some (1/3), some (2/3)])) ∧
    demoRows [0] [two] 3 = some [(List.replicate 7 (some 0)) ++ [some (1/3), some (2/3)]] := by
  constructor <;> decide +kernel

/-- Two moves of TicTacToe games, with four iterations per search. -/
def demoPlay (n : Nat) : Res (SelfPlay (TTT.game .debug) × Tape) :=
  selfPlayRun demoNet { iterations := 4, limit := 1, pw := id } (demoOrders _) n 2 fun n => n * n * 7 + n / 2

/-- The situation of `C111_selfplay` and `C111_opening` exists: three games which choose different first moves. -/
theorem demo_opening : (demoPlay 3).toOption.map (fun r => (List.range 3).map fun i => (r.1.mems.getD i []).map fun m =>
    (List.range 9).map fun c => (m.ps c).map (4 * ·)) =
    some [[[some 0, some 0, some 0, some 0, some 0, some 1, some 1, some 1, some 1],
           [some 0, some 0, some 0, some 0, some 1, some 1, some 1, some 1, some 0]],
          [[some 0, some 0, some 0, some 0, some 0, some 1, some 1, some 1, some 1],
           [some 0, some 0, some 0, some 0, some 1, some 1, some 0, some 1, some 1]],
          [[some 0, some 0, some 0, some 0, some 0, some 1, some 1, some 1, some 1],
           [some 0, some 0, some 0, some 0, some 1, some 0, some 1, some 1, some 1]]] := by decide +kernel

/-- The other game makes a difference: it has no finished leaf in the second iteration. -/
theorem demo_mixed : (demoRows [0, 1] [two, TTT.new] 3).map (List.take 1) = some [(List.replicate 7 (some 0)) ++ [some (1/2), some (1/2)]] := by
  decide +kernel

example : ∃ (net : ResNet) (vs : VarStore N.demoArith.F), Built tttSizes net vs :=
  ⟨_, _, N.built_new (F := N.demoArith.F) (fun k _ => (k : Int)) tttSizes⟩

/-- The result of the game in the position that the sample search selects after `i` iterations. -/
def demoLeaf (s : TTT.State) (i : Nat) : Option (Option Int) :=
  ((demoRun [0] [s] i).toOption.bind fun r => (alphaLeafNode 0 r.1).toOption.bind fun k => r.1[k]?).map
    fun n => (TTT.game .debug).winner n.state

theorem demoLeaf_eq {s : TTT.State} {i : Nat} {st : Store (TTT.game .debug) demoFloats} {t1 : Tape} {k : Nat}
    {kn : Node (TTT.game .debug) demoFloats} {w : Option Int} (hw : demoLeaf s i = some w)
    (h : alphaMctsParallel (G := TTT.game .debug) demoNet [0] [s] i [] demoTape = .ok (st, t1)) (hl : Leaf st 0 k kn) :
    (TTT.game .debug).winner kn.state = w := by
  unfold demoLeaf at hw
  rw [show demoRun [0] [s] i = .ok (st, t1) from h] at hw
  simp only [Except.toOption, Option.bind_some, hl.1, hl.2, Option.map_some, Option.some.injEq] at hw
  exact hw

/-- The situation of `C112_alone_partial` and `C112_shares_partial` exists with different positions. -/
example : InStep (G := TTT.game .debug) demoNet [two, TTT.new] 2 demoTape := by
  intro i hi
  refine .inl fun g (s : TTT.State) st t1 k kn hg h hl => ?_
  have hs : s = two ∨ s = TTT.new := by
    have : s ∈ ([two, TTT.new] : List TTT.State) := List.mem_of_getElem? hg
    rcases List.mem_cons.1 this with h | h
    · exact .inl h
    · exact .inr (List.mem_singleton.1 h)
  have hi : i = 0 ∨ i = 1 := by omega
  rcases hs with rfl | rfl <;> rcases hi with rfl | rfl <;> exact demoLeaf_eq (by decide +kernel) h hl

/-! ## C112 is false in general -/

/-- C112 as intended: a game gets from the batched search the visit shares it would get alone. -/
def C112_statement : Prop :=
  ∀ (G : Game) (Fl : Floats) (net : Mcts.Net Fl), Plain G → RowWise net G →
    ∀ (states : List G.S) (order : List Nat) (iterations : Nat) (t t1 : Tape) (b : Store G Fl) (rows : List Row),
      order.Perm (List.range states.length) → alphaMctsParallel net order states iterations [] t = .ok (b, t1) →
      getProbTensorParallel (getRootNodes b) b = .ok rows →
      ∀ (g : Nat) (s : G.S) (a : Store G Fl) (t2 : Tape) (row : List Row), states[g]? = some s →
        alphaMctsParallel net [0] [s] iterations [] t = .ok (a, t2) →
        getProbTensorParallel (getRootNodes a) a = .ok row → rows[g]? = row[0]?

/-- C112 is false: in a batch with a game that selects an unfinished position, the finished position selected by another
game is not counted as a visit, so that a search of three iterations visits less often than alone. -/
theorem C112_refuted : ¬ C112_statement := by
  intro h
  have h1 := demo_rows.2
  have h2 := demo_mixed
  unfold demoRows at h1 h2
  cases hb : demoRun [0, 1] [two, TTT.new] 3 with
  | error e => rw [hb] at h2; simp [Except.toOption] at h2
  | ok b =>
    cases ha : demoRun [0] [two] 3 with
    | error e => rw [ha] at h1; simp [Except.toOption] at h1
    | ok a =>
      rw [hb] at h2
      rw [ha] at h1
      cases hrb : getProbTensorParallel (getRootNodes b.1) b.1 with
      | error e => simp [Except.toOption, hrb] at h2
      | ok rows =>
        cases hra : getProbTensorParallel (getRootNodes a.1) a.1 with
        | error e => simp [Except.toOption, hra] at h1
        | ok row =>
          have e := h (TTT.game .debug) demoFloats demoNet (ttt_plain _) demo_rowWise [two, TTT.new] [0, 1] 3 demoTape b.2 b.1 rows
            (by decide) hb hrb 0 two a.1 a.2 row rfl ha hra
          simp only [Except.toOption, Option.bind_some, hrb, hra, Option.map_some, Option.some.injEq] at h1 h2
          cases rows with
          | nil => simp at h2
          | cons r1 rows =>
            cases row with
            | nil => simp at h1
            | cons r2 row =>
              simp only [List.getElem?_cons_zero, Option.some.injEq] at e
              subst e
              simp only [List.map_cons, List.take_succ_cons, List.take_zero, List.cons.injEq] at h1 h2
              have := h1.1.symm.trans h2.1
              exact absurd this (by decide +kernel)

end DieE.Props.Bt
