import Verif.Mcts.CopyBack
import Verif.Props.Apart
import Verif.Props.Length
import Verif.Props.Memory

/-! # C112: the games of a batch, with dice -/

namespace DieE.Props.Bt
open DieE DieE.Mcts DieE.Props.A DieE.Props.S DieE.Train DieE.Net DieE.Spec
open DieE.Props.N (Built asSearchNet)
open DieE.Props.Ro (Shorts bg_shorts)

variable {G : Game} {Fl : Floats}

/-! ## The searches alone -/

/-- C112 for games with and without dice, weaker than intended: if in every iteration of the batched search either all or none of
the games select a finished position, then the tree that a game gets from the batched search is one that its search alone
gives, with the same noise and the dice thrown for that game; and the batched search contains no other nodes.  Missing:
the iterations in which some games select a finished position and others do not (`C112_refuted`). -/
theorem C112_dice_partial (hd : Shorts G) {net : Net Fl} (hr : RowWise net G) {states : List G.S} (hne : states ≠ [])
    {order : List Nat} (ho : order.Perm (List.range states.length)) {t t1 : Tape} {iterations : Nat}
    (hstep : Abreast net order states iterations t) {b : Store G Fl}
    (hb : alphaMctsParallel net order states iterations [] t = .ok (b, t1)) :
    ∃ (a : Nat → Store G Fl) (φ : Nat → Nat → Nat),
      (∀ (g : Nat) (s : G.S), states[g]? = some s → Copy (a g) b (φ g) ∧ φ g 0 = g ∧
        ∀ v : Tape, ∃ tg : Tape, tg 0 = t 0 ∧ alphaMctsParallel net [0] [s] iterations [] tg = .ok (a g, v)) ∧
      ∀ j, j < b.length → ∃ g q, g < states.length ∧ q < (a g).length ∧ φ g q = j := by
  obtain ⟨a, φ, h1, h2⟩ := search_back hd hr hne ho hstep hb
  refine ⟨a, φ, fun g s hs => ?_, h1.cover⟩
  have hg := (List.getElem?_eq_some_iff.1 hs).1
  exact ⟨h1.copy g hg, h1.root g hg, h2 g s hs⟩

/-- C112 with dice, for the result of the search: under the same conditions the visit shares of a game are those of a
search of the game alone, with the same noise. -/
theorem C112_dice_shares_partial (hd : Shorts G) {net : Net Fl} (hr : RowWise net G) {states : List G.S}
    {order : List Nat} (ho : order.Perm (List.range states.length)) {t t1 : Tape} {iterations : Nat}
    (hstep : Abreast net order states iterations t) {b : Store G Fl}
    (hb : alphaMctsParallel net order states iterations [] t = .ok (b, t1)) {rows : List Row}
    (hrows : getProbTensorParallel (getRootNodes b) b = .ok rows) {g : Nat} {s : G.S} (hg : states[g]? = some s) :
    ∃ (tg tg' : Tape) (a : Store G Fl) (row : Row), tg 0 = t 0 ∧
      alphaMctsParallel net [0] [s] iterations [] tg = .ok (a, tg') ∧
      getProbTensorParallel (getRootNodes a) a = .ok [row] ∧ rows[g]? = some row := by
  have hgl : g < states.length := (List.getElem?_eq_some_iff.1 hg).1
  have hne : states ≠ [] := by rintro rfl; simp at hg
  obtain ⟨a, φ, h1, h2⟩ := search_back hd hr hne ho hstep hb
  obtain ⟨tg, h3, ha⟩ := h2 g s hg t
  have fb := alphaMctsParallel_forest ho hb
  have fa := alphaMctsParallel_forest (states := [s]) (order := [0]) (by simp) ha
  have hc := h1.copy g hgl
  obtain ⟨n, hn, -⟩ := fa.state 0 s rfl
  have hn' := hc.get 0 n hn
  rw [h1.root g hgl] at hn'
  obtain ⟨ws, k1, k2⟩ := root_row fb hrows hgl hn'
  rw [childVisits_copy hc fa.wf hn] at k1
  have k1' : childVisits n.state (a g) n = .ok ws := k1
  refine ⟨tg, t, a g, _, h3, ha, ?_, k2⟩
  have hroots : getRootNodes (a g) = [n] := by
    rw [getRootNodes_take fa]
    have hlen := fa.len
    obtain ⟨x, l, hl⟩ : ∃ x l, a g = x :: l := by
      cases hag : a g with
      | nil => rw [hag] at hn; simp at hn
      | cons x l => exact ⟨x, l, rfl⟩
    rw [hl] at hn ⊢
    have : x = n := by simpa using hn
    subst this
    rfl
  -- the codes are in range, as they are in the batch
  have hrange : ∀ w ∈ ws, w.1 < G.actionSpace := by
    unfold getProbTensorParallel at hrows
    obtain ⟨wss, g1, g2⟩ := Res.bind_ok.1 hrows
    split at g2
    · rename_i hlt
      refine hlt ws ?_
      rw [getRootNodes_take fb] at g1
      obtain ⟨y, g3, g4⟩ := (mapM_get _ g1).2 g (n.move (φ g)) (by rw [List.getElem?_take, if_pos hgl, hn'])
      have g3' : childVisits n.state b (n.move (φ g)) = .ok y := g3
      rw [childVisits_copy hc fa.wf hn, k1'] at g3'
      cases Except.ok.inj g3'
      exact List.mem_of_getElem? g4
    · cases g2
  unfold getProbTensorParallel
  rw [hroots, List.mapM_cons, k1']
  show (if ∀ ws' ∈ [ws], ∀ w ∈ ws', w.1 < G.actionSpace then _ else _) = _
  rw [if_pos (by simpa using hrange)]
  rfl

/-! ## When the games are abreast -/

/-- A property that moves keep holds in the whole tree. -/
theorem along {st : Store G Fl} (w : WellFormed st) (F : Nat → G.S → Prop)
    (hstep : ∀ d s ms a s', G.moves s = .ok ms → a ∈ ms → Plays G s a s' → F d s → F (d + 1) s')
    (hroot : ∀ (i : Nat) (n : Node G Fl), st[i]? = some n → n.parent = none → F 1 n.state) {i d : Nat} (hd : Depth st d i) :
    ∀ n : Node G Fl, st[i]? = some n → F d n.state := by
  induction hd with
  | root h1 h2 => intro n hn; exact hroot _ n hn (by rw [h1] at hn; cases Option.some.inj hn; exact h2)
  | step h1 h2 h3 ih =>
    intro n hn
    rw [h1] at hn
    cases Option.some.inj hn
    obtain ⟨-, pn, a, h4, h5, -⟩ := w.up _ _ _ h1 h2
    obtain ⟨b, ms, -, h6, h7, h8⟩ := child_legal w h4 h5 h1
    exact hstep _ _ _ _ _ h6 h7 h8 (ih pn h4)

/-- Games which cannot end within as many moves as there are iterations are abreast. -/
theorem abreast_of {R : G.S → Prop} {W : Nat} (hs : Safe G R) (hW : ∀ s ms, R s → G.moves s = .ok ms → ms.length ≤ W)
    (F : Nat → G.S → Prop) (hstep : ∀ d s ms a s', G.moves s = .ok ms → a ∈ ms → Plays G s a s' → F d s → F (d + 1) s')
    {iterations : Nat} (hF : ∀ d s, d ≤ iterations + 1 → F d s → G.winner s = none) {net : Net Fl} {states : List G.S}
    (hR : ∀ s ∈ states, R s) (h1 : ∀ s ∈ states, F 1 s) {order : List Nat} (ho : order.Perm (List.range states.length))
    (t : Tape) : Abreast net order states iterations t := by
  intro i hi st t1 h
  refine .inl fun g hg k kn hl => ?_
  have f := alphaMctsParallel_forest ho h
  obtain ⟨-, hsh, -⟩ := alphaMctsParallel_room hs hW hR h
  obtain ⟨d, h2, h3⟩ := hsh k (List.getElem?_eq_some_iff.1 hl.2).1
  refine hF d _ (by omega) (along f.wf F hstep ?_ h3 kn hl.2)
  intro j n hj hp
  have hjl := (f.roots j n hj).1 hp
  obtain ⟨m, h4, h5⟩ := f.state j _ (List.getElem?_eq_getElem hjl)
  rw [hj] at h4
  cases Option.some.inj h4
  rw [h5]
  exact h1 _ (List.getElem_mem _)

/-! ## Backgammon -/

/-- Games that are far from their end (C140) are abreast. -/
theorem bg_abreast (pf : Profile) {net : Net Fl} {states : List BG.State} (hR : ∀ s ∈ states, StateOK s) {iterations : Nat}
    (hfar : ∀ s ∈ states, ∀ u, Gl.Far iterations s u) {order : List Nat}
    (ho : order.Perm (List.range states.length)) (t : Tape) : Abreast (G := BG.game pf) net order states iterations t := by
  refine abreast_of (R := fun s : BG.State => StateOK s) (bg_safe pf) (Mm.bg_width pf)
    (fun d (s : BG.State) => StateOK s ∧ ∀ u, Gl.Far ((iterations : Int) + 1 - d) s u) ?_ ?_ hR ?_ ho t
  · intro d s ms a s' hm ha hp hF
    refine ⟨(bg_safe pf).closed s ms a s' hF.1 hm ha hp, fun u => ?_⟩
    refine Gl.Far.step ?_ hF.1 (Gl.plays_step pf hm ha hp)
    rw [show (iterations : Int) + 1 - ((d + 1 : Nat) : Int) + 1 = (iterations : Int) + 1 - d by push_cast; omega]
    exact hF.2 u
  · intro d s hd hF
    exact Gl.Far.open (by omega) hF.1 hF.2
  · intro s hs
    refine ⟨hR s hs, fun u => ?_⟩
    have := hfar s hs u
    simpa using this

theorem bg_tensor_ok {s : BG.State} {x : Tensor Int} (h : BG.asTensor s = .ok x) : s.roll ≠ (0, 0) ∧ x.shape = [1, 6, 4, 6] := by
  by_cases hz : s.roll = (0, 0)
  · rw [(C23_content s).1 hz] at h
    cases h
  · obtain ⟨y, h1, h2⟩ := N.bg_tensor hz
    rw [h] at h1
    cases Except.ok.inj h1
    exact ⟨hz, h2⟩

/-- The network of the program treats every row of a batch by itself. -/
theorem rowWise_backgammon (A : Arith) {Fl : Floats} (conv : A.F → Fl.F) {net : ResNet} {vs : VarStore A.F}
    (hb : Built bgSizes net vs) (rest : Mcts.Net Fl) (pf : Profile) :
    RowWise (asSearchNet A conv net vs rest) (BG.game pf) := by
  refine ⟨⟨[6, 4, 6], fun s x hx => (bg_tensor_ok hx).2⟩, ?_⟩
  intro (ss : List BG.State) ts x hts hx g u y hu hy
  have hts : ss.mapM BG.asTensor = .ok ts := hts
  have hroll : ∀ s ∈ ss, s.roll ≠ (0, 0) := by
    intro s hs
    obtain ⟨i, hi⟩ := List.mem_iff_getElem?.1 hs
    obtain ⟨z, h1, -⟩ := (mapM_get _ hts).2 i s hi
    exact (bg_tensor_ok h1).1
  have hlen := (mapM_get _ hts).1
  have hg : g < ts.length := (List.getElem?_eq_some_iff.1 hu).1
  obtain ⟨s, hs⟩ : ∃ s, ss[g]? = some s := ⟨ss[g], List.getElem?_eq_getElem (by omega)⟩
  obtain ⟨z, hsu, hz⟩ := (mapM_get _ hts).2 g s hs
  rw [hu] at hz
  cases Option.some.inj hz
  have hss : ss ≠ [] := by rintro rfl; simp at hs
  have hsr : s.roll ≠ (0, 0) := hroll s (List.mem_of_getElem? hs)
  obtain ⟨ts2, x2, f1, f2, f3⟩ := N.C59_backgammon A hb (ss := ss) hss hroll
  have : ts2 = ts := Except.ok.inj (f1.symm.trans hts)
  subst this
  have : x2 = x := Except.ok.inj (f2.symm.trans hx)
  subst this
  obtain ⟨ts3, x3, g1, g2, g3⟩ := N.C59_backgammon A hb (ss := [s]) (by simp) (by simpa using hsr)
  have h1 : [s].mapM BG.asTensor = .ok [u] := by
    rw [List.mapM_cons, hsu]
    rfl
  have : ts3 = [u] := Except.ok.inj (g1.symm.trans h1)
  subst this
  have : x3 = y := Except.ok.inj (g2.symm.trans hy)
  subst this
  obtain ⟨⟨p, v, a1, a2, a3⟩, -⟩ := f3 false
  obtain ⟨⟨q, w, b1, b2, b3⟩, -⟩ := g3 false
  obtain ⟨z, c1, c2⟩ := (N.C59_single A).2 hb s hsr
  have : z = u := Except.ok.inj (c1.symm.trans hsu)
  subst this
  obtain ⟨⟨r, o, d1, -⟩, -⟩ := c2 false
  obtain ⟨k1, k2⟩ := N.C68_backgammon A hb hroll hs hsu hts hx a1 d1
  obtain ⟨k3, k4⟩ := N.C68_backgammon A hb (ss := [s]) (by simpa using hsr) (j := 0) rfl hsu h1 hy b1 d1
  constructor
  · intro c
    show (match net.forward A vs false (mapT A.ofInt x2) with
      | .ok (p, _) => if c < p.shape.getD 1 0 then conv (p.at' [g, c]) else conv (A.ofInt 0)
      | .error _ => rest.policy x2 g c) = (match net.forward A vs false (mapT A.ofInt x3) with
      | .ok (p, _) => if c < p.shape.getD 1 0 then conv (p.at' [0, c]) else conv (A.ofInt 0)
      | .error _ => rest.policy x3 0 c)
    rw [a1, b1]
    simp only [a2, b2]
    by_cases hc : c < 1352
    · have : c < [ss.length, 1352].getD 1 0 := hc
      have : c < [[s].length, 1352].getD 1 0 := hc
      rw [if_pos ‹_›, if_pos ‹_›, k1 c hc, k3 c hc]
    · have : ¬ c < [ss.length, 1352].getD 1 0 := hc
      have : ¬ c < [[s].length, 1352].getD 1 0 := hc
      rw [if_neg ‹_›, if_neg ‹_›]
  · show (match net.forward A vs false (mapT A.ofInt x2) with
      | .ok (_, v) => conv (v.at' [g, 0])
      | .error _ => rest.eval x2 g) = (match net.forward A vs false (mapT A.ofInt x3) with
      | .ok (_, v) => conv (v.at' [0, 0])
      | .error _ => rest.eval x3 0)
    rw [a1, b1]
    simp only
    rw [k2 0 (by decide), k4 0 (by decide)]

/-- C112 for Backgammon with the network of the program: in a batch of games none of which can end within as many moves as
there are iterations, the search returns, and every game gets a tree that its search alone gives with the same noise. -/
theorem C112_backgammon_partial (A : Arith) (conv : A.F → Fl.F) {net : ResNet} {vs : VarStore A.F} (hb : Built bgSizes net vs)
    (rest : Mcts.Net Fl) (hal : rest.alphaOk = true) (pf : Profile) {states : List BG.State} (hne : states ≠ [])
    (hR : ∀ s ∈ states, StateOK s) {iterations : Nat} (hfar : ∀ s ∈ states, ∀ u, Gl.Far iterations s u)
    {order : List Nat} (ho : order.Perm (List.range states.length)) (t : Tape) :
    ∃ (b : Store (BG.game pf) Fl) (t1 : Tape) (a : Nat → Store (BG.game pf) Fl) (φ : Nat → Nat → Nat),
      alphaMctsParallel (G := BG.game pf) (asSearchNet A conv net vs rest) order states iterations [] t = .ok (b, t1) ∧
      (∀ (g : Nat) (s : BG.State), states[g]? = some s → Copy (a g) b (φ g) ∧ φ g 0 = g ∧
        ∀ v : Tape, ∃ tg : Tape, tg 0 = t 0 ∧
          alphaMctsParallel (G := BG.game pf) (asSearchNet A conv net vs rest) [0] [s] iterations [] tg = .ok (a g, v)) ∧
      ∀ j, j < b.length → ∃ g q, g < states.length ∧ q < (a g).length ∧ φ g q = j := by
  obtain ⟨b, t1, h1, -⟩ := alphaMctsParallel_progress (Fl := Fl) (bg_safeNet pf) (net := asSearchNet A conv net vs rest) hal
    hne hR ho iterations t
  obtain ⟨a, φ, h2, h3⟩ := C112_dice_partial (bg_shorts pf) (rowWise_backgammon A conv hb rest pf) hne ho
    (bg_abreast pf hR hfar ho t) h1
  exact ⟨b, t1, a, φ, h1, h2, h3⟩

/-- The hypotheses hold: two games at the beginning with different dice, 24 iterations. -/
example : ∀ s ∈ [opening, { opening with roll := (6, 6) }], StateOK s ∧ ∀ u, Gl.Far 24 s u := by
  intro s hs
  simp only [List.mem_cons, List.not_mem_nil, or_false] at hs
  rcases hs with rfl | rfl
  · exact ⟨opening_ok, by intro u; cases u <;> exact .inr (by decide +kernel)⟩
  · exact ⟨⟨opening_ok.board, by decide, by decide, by decide⟩,
      by intro u; cases u <;> exact .inr (by decide +kernel)⟩

example : ∃ (net : ResNet) (vs : VarStore N.demoArith.F), Built bgSizes net vs :=
  ⟨_, _, N.built_new (F := N.demoArith.F) (fun k _ => (k : Int)) bgSizes⟩

end DieE.Props.Bt
