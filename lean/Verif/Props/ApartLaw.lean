import Verif.Mcts.CopyLaw
import Verif.Props.ApartDice

/-! # C139: batching does not change the chances of a search -/

namespace DieE.Props.Bt
open DieE DieE.Mcts DieE.Props.A DieE.Props.S DieE.Train DieE.Net DieE.Spec DieE.Prob
open DieE.Props.N (Built asSearchNet)
open DieE.Props.Ro (Shorts bg_shorts)

variable {G : Game} {Fl : Floats}

/-- The batched search and the search alone always return, and there is a random pair of trees, the first distributed like
the result of the batched search, the second like that of the search of one game alone, in which the second is always the part
of the first that belongs to the game.  The condition is that in every iteration of the batched search, whatever the random
numbers, either all or none of the games select a finished position. -/
theorem C139_coupling (hd : Shorts G) {R : G.S → Prop} (hs : SafeNet G R) {net : Mcts.Net Fl} (hal : net.alphaOk = true)
    (hr : RowWise net G) {states : List G.S} (hR : ∀ s ∈ states, R s) {order : List Nat}
    (ho : order.Perm (List.range states.length)) {iterations : Nat} (hstep : ∀ t, Abreast net order states iterations t)
    {g : Nat} {s : G.S} (hg : states[g]? = some s) (ν : PMF ℕ) :
    ∃ q : PMF (Store G Fl × Store G Fl),
      (∀ B : Set (Store G Fl), iid ν {t | ∃ b t', alphaMctsParallel net order states iterations [] t = .ok (b, t') ∧ b ∈ B} =
        q.toOuterMeasure {p | p.1 ∈ B}) ∧
      (∀ B : Set (Store G Fl), iid ν {t | ∃ a t', alphaMctsParallel net [0] [s] iterations [] t = .ok (a, t') ∧ a ∈ B} =
        q.toOuterMeasure {p | p.2 ∈ B}) ∧
      ∀ p ∈ q.support, ∃ φ, Copy p.2 p.1 φ ∧ φ 0 = g := by
  obtain ⟨q, h1, h2, h3⟩ := search_law hd hs hal hr hR ho hstep hg ν
  have ev : ∀ (m : M (Store G Fl)) (B : Set (Store G Fl)),
      {t | ∃ b t', m t = .ok (b, t') ∧ b ∈ B} = {t | Prob.value m t ∈ {r | ∃ b ∈ B, r = .ok b}} := by
    intro m B
    ext t
    constructor
    · rintro ⟨b, t', h, hb⟩
      refine ⟨b, hb, ?_⟩
      unfold Prob.value
      rw [h]
      rfl
    · rintro ⟨b, hb, h⟩
      obtain ⟨t', h⟩ := value_ok h
      exact ⟨b, t', h, hb⟩
  refine ⟨q, fun B => ?_, fun B => ?_, fun p hp => (h3 p hp).1⟩
  · rw [ev, h1.prob, PMF.toOuterMeasure_map_apply]
    congr 1
    ext p
    constructor
    · rintro ⟨b, hb, h⟩
      show p.1 ∈ B
      rw [(Except.ok.inj h : p.1 = b)]
      exact hb
    · intro h
      exact ⟨p.1, h, rfl⟩
  · rw [ev, h2.prob, PMF.toOuterMeasure_map_apply]
    congr 1
    ext p
    constructor
    · rintro ⟨b, hb, h⟩
      show p.2 ∈ B
      rw [(Except.ok.inj h : p.2 = b)]
      exact hb
    · intro h
      exact ⟨p.2, h, rfl⟩

/-- The row of visit shares that a copy of a tree gives. -/
theorem row_copy {R : G.S → Prop} (hs : SafeNet G R) (hc : Coded G R) {net : Mcts.Net Fl} (hal : net.alphaOk = true)
    {states : List G.S} (hR : ∀ s ∈ states, R s) {order : List Nat} (ho : order.Perm (List.range states.length))
    {iterations : Nat} {g : Nat} {s : G.S} (hg : states[g]? = some s) {b a : Store G Fl} {t t' u u' : Tape}
    (hb : alphaMctsParallel net order states iterations [] t = .ok (b, t'))
    (ha : alphaMctsParallel net [0] [s] iterations [] u = .ok (a, u')) {φ : Nat → Nat} (h : Copy a b φ) (h0 : φ 0 = g) :
    ∃ rows rows' row, getProbTensorParallel (getRootNodes b) b = .ok rows ∧
      getProbTensorParallel (getRootNodes a) a = .ok rows' ∧ rows[g]? = some row ∧ rows'[0]? = some row := by
  have hgl : g < states.length := (List.getElem?_eq_some_iff.1 hg).1
  have hne : states ≠ [] := by rintro rfl; simp at hg
  obtain ⟨rows, h1, -, -⟩ := C39_search hs hc hal hne hR ho hb
  obtain ⟨rows', h2, -, -⟩ := C39_search hs hc hal (states := [s]) (order := [0]) (by simp) (by
    intro x hx
    rw [List.mem_singleton] at hx
    subst hx
    exact hR _ (List.mem_of_getElem? hg)) (by simp) ha
  have fb := alphaMctsParallel_forest ho hb
  have fa := alphaMctsParallel_forest (states := [s]) (order := [0]) (by simp) ha
  obtain ⟨n, hn, -⟩ := fa.state 0 s rfl
  have hn' := h.get 0 n hn
  rw [h0] at hn'
  obtain ⟨ws, k1, k2⟩ := root_row fb h1 hgl hn'
  obtain ⟨ws', k3, k4⟩ := root_row fa h2 (g := 0) (by simp) hn
  rw [childVisits_copy h fa.wf hn] at k1
  have : ws = ws' := Except.ok.inj (k1.symm.trans k3)
  subst this
  exact ⟨rows, rows', _, h1, h2, k2, k4⟩

/-- C139: under the same condition the visit shares of a game in the batch have the same distribution as those of its search
alone, whatever the distribution of the random numbers. -/
theorem C139_shares (hd : Shorts G) {R : G.S → Prop} (hs : SafeNet G R) (hc : Coded G R) {net : Mcts.Net Fl}
    (hal : net.alphaOk = true) (hr : RowWise net G) {states : List G.S} (hR : ∀ s ∈ states, R s) {order : List Nat}
    (ho : order.Perm (List.range states.length)) {iterations : Nat} (hstep : ∀ t, Abreast net order states iterations t)
    {g : Nat} {s : G.S} (hg : states[g]? = some s) (ν : PMF ℕ) (B : Set Row) :
    iid ν {t | ∃ (b : Store G Fl) (t' : Tape) (rows : List Row) (row : Row),
        alphaMctsParallel net order states iterations [] t = .ok (b, t') ∧
        getProbTensorParallel (getRootNodes b) b = .ok rows ∧ rows[g]? = some row ∧ row ∈ B} =
    iid ν {t | ∃ (a : Store G Fl) (t' : Tape) (rows : List Row) (row : Row),
        alphaMctsParallel net [0] [s] iterations [] t = .ok (a, t') ∧
        getProbTensorParallel (getRootNodes a) a = .ok rows ∧ rows[0]? = some row ∧ row ∈ B} := by
  let m (order : List Nat) (states : List G.S) (g : Nat) : M (Option Row) := do
    let b ← alphaMctsParallel net order states iterations ([] : Store G Fl)
    M.lift ((getProbTensorParallel (getRootNodes b) b).map fun rows => rows[g]?)
  have ev : ∀ (order : List Nat) (states : List G.S) (g : Nat), {t | ∃ (b : Store G Fl) (t' : Tape) (rows : List Row) (row : Row),
        alphaMctsParallel net order states iterations [] t = .ok (b, t') ∧
        getProbTensorParallel (getRootNodes b) b = .ok rows ∧ rows[g]? = some row ∧ row ∈ B} =
      {t | Prob.value (m order states g) t ∈ {r | ∃ row ∈ B, r = .ok (some row)}} := by
    intro order states g
    ext t
    constructor
    · rintro ⟨b, t', rows, row, h1, h2, h3, h4⟩
      refine ⟨row, h4, ?_⟩
      have : m order states g t = .ok (some row, t') := (M.run h1).trans (by
        rw [h2]
        show Except.ok (rows[g]?, t') = _
        rw [h3])
      unfold Prob.value
      rw [this]
      rfl
    · rintro ⟨row, h4, h⟩
      obtain ⟨t', h⟩ := value_ok h
      obtain ⟨b, t1, h1, h2⟩ := M.bind_ok.1 h
      have h2 := (M.lift_ok.1 h2).1
      cases h3 : getProbTensorParallel (getRootNodes b) b with
      | error e => rw [h3] at h2; cases h2
      | ok rows =>
        rw [h3] at h2
        exact ⟨b, t1, rows, row, h1, h3, Except.ok.inj h2, h4⟩
  rw [ev, ev]
  refine Same.prob (Coupled.same ?_) ν _
  refine (search_law hd hs hal hr hR ho hstep hg).occur.bind (fun _ => short_lift _) (fun _ => short_lift _) ?_
  rintro b a ⟨⟨⟨φ, h1, h2⟩, -, -⟩, ⟨t, t', h3⟩, ⟨u, u', h4⟩⟩
  obtain ⟨rows, rows', row, h5, h6, h7, h8⟩ := row_copy hs hc hal hR ho hg h3 h4 h1 h2
  refine .tape (short_lift _) (short_lift _) fun t => ⟨some row, some row, t, t, ?_, ?_, rfl⟩
  · rw [h5]
    show Except.ok (rows[g]?, t) = _
    rw [h7]
  · rw [h6]
    show Except.ok (rows'[0]?, t) = _
    rw [h8]

/-- C139 for Backgammon with the network of the program: in a batch of games none of which can end within as many moves as
there are iterations, the visit shares of a game have the distribution of those of its search alone. -/
theorem C139_backgammon (A : Arith) (conv : A.F → Fl.F) {net : ResNet} {vs : VarStore A.F} (hb : Built bgSizes net vs)
    (rest : Mcts.Net Fl) (hal : rest.alphaOk = true) (pf : Profile) {states : List BG.State}
    (hR : ∀ s ∈ states, StateOK s) {iterations : Nat} (hfar : ∀ s ∈ states, ∀ u, Gl.Far iterations s u)
    {order : List Nat} (ho : order.Perm (List.range states.length)) {g : Nat} {s : BG.State} (hg : states[g]? = some s)
    (ν : PMF ℕ) (B : Set Row) :
    iid ν {t | ∃ (b : Store (BG.game pf) Fl) (t' : Tape) (rows : List Row) (row : Row),
        alphaMctsParallel (G := BG.game pf) (asSearchNet A conv net vs rest) order states iterations [] t = .ok (b, t') ∧
        getProbTensorParallel (getRootNodes b) b = .ok rows ∧ rows[g]? = some row ∧ row ∈ B} =
    iid ν {t | ∃ (a : Store (BG.game pf) Fl) (t' : Tape) (rows : List Row) (row : Row),
        alphaMctsParallel (G := BG.game pf) (asSearchNet A conv net vs rest) [0] [s] iterations [] t = .ok (a, t') ∧
        getProbTensorParallel (getRootNodes a) a = .ok rows ∧ rows[0]? = some row ∧ row ∈ B} :=
  C139_shares (bg_shorts pf) (bg_safeNet pf) (bg_coded pf) (net := asSearchNet A conv net vs rest) hal
    (rowWise_backgammon A conv hb rest pf) hR ho (bg_abreast pf hR hfar ho) hg ν B

/-- Not vacuous: the batch of two games at the beginning with different dice, 24 iterations, and a network. -/
example : ∃ (net : ResNet) (vs : VarStore N.demoArith.F), Built bgSizes net vs ∧
    (∀ s ∈ [opening, { opening with roll := (6, 6) }], StateOK s ∧ ∀ u, Gl.Far 24 s u) ∧
    [opening, { opening with roll := (6, 6) }][1]? = some { opening with roll := (6, 6) } := by
  refine ⟨_, _, N.built_new (F := N.demoArith.F) (fun k _ => (k : Int)) bgSizes, ?_, rfl⟩
  intro s hs
  simp only [List.mem_cons, List.not_mem_nil, or_false] at hs
  rcases hs with rfl | rfl
  · exact ⟨opening_ok, by intro u; cases u <;> exact .inr (by decide +kernel)⟩
  · exact ⟨⟨opening_ok.board, by decide, by decide, by decide⟩,
      by intro u; cases u <;> exact .inr (by decide +kernel)⟩

end DieE.Props.Bt
