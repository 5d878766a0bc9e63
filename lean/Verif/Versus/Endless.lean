import Verif.Versus.Progress

/-! # Matches of random players that never end -/

namespace DieE.Versus
open DieE.Mcts

variable {G : Game} {Fl : Floats}

/-- With random source `u`, the random player plays `a` in state `s`, the game goes on in `s'` and the source is the same
again. -/
structure Stays (u : Tape) (s : G.S) (a : G.Mv) (s' : G.S) : Prop where
  act : randomAction s u = .ok (a, u)
  go : (a = G.emptyMove ∧ G.skip s u = .ok (s', u)) ∨
    (a ≠ G.emptyMove ∧ (∃ ms, G.moves s = .ok ms ∧ a ∈ ms) ∧ G.apply s a u = .ok (s', u) ∧ G.winner s' = none)

/-- States `C k` after `k` rounds, from which the game goes on forever: only turns are passed when the limit is
reached. -/
def Forever (u : Tape) (limit : Nat) (C : Nat → G.S → Prop) : Prop :=
  ∀ k s, C k s → ∃ a s', Stays u s a s' ∧ C (k + 1) s' ∧ (a ≠ G.emptyMove → k + 1 < limit)

/-- All games go on. -/
def AllOn (C : Nat → G.S → Prop) (n k : Nat) (m : Match G) : Prop :=
  ∀ i, i < n → ∃ s r, m.games i = some (s, r) ∧ G.id s = i ∧ C k s

theorem eachGame_stays {u : Tape} {limit : Nat} {C : Nat → G.S → Prop} (hC : Forever u limit C) {k : Nat} (ss : List G.S)
    (h : ∀ s ∈ ss, C k s) :
    ∃ as, eachGame randomAction ss u = .ok (as, u) ∧
      List.Forall₂ (fun s a => ∃ s', Stays u s a s' ∧ C (k + 1) s' ∧ (a ≠ G.emptyMove → k + 1 < limit)) ss as := by
  induction ss with
  | nil => exact ⟨[], rfl, .nil⟩
  | cons s ss ih =>
    obtain ⟨a, s', h1, h2, h3⟩ := hC k s (h s (List.mem_cons_self ..))
    obtain ⟨as, h4, h5⟩ := ih fun s hs => h s (List.mem_cons_of_mem _ hs)
    exact ⟨a :: as, (M.bind_eq h1.act).trans ((M.bind_eq h4).trans rfl), .cons ⟨s', h1, h2, h3⟩ h5⟩

theorem getActions_stays {u : Tape} {limit : Nat} {C : Nat → G.S → Prop} (hC : Forever u limit C) {k : Nat}
    {pl : Player Fl} (hp : pl.agent = .random) (cfg : Config) (order : Nat → List Nat) (ss : List G.S)
    (h : ∀ s ∈ ss, C k s) :
    ∃ as, getActions pl cfg order ss u = .ok (as, u) ∧
      List.Forall₂ (fun s a => ∃ s', Stays u s a s' ∧ C (k + 1) s' ∧ (a ≠ G.emptyMove → k + 1 < limit)) ss as := by
  by_cases he : ss = []
  · subst he
    exact ⟨[], rfl, .nil⟩
  · rw [getActions_cons pl cfg order he, hp]
    exact eachGame_stays hC ss h

theorem playAction_stays {u : Tape} {limit k : Nat} {a1 a2 : Agent} {first : Bool} {a : G.Mv} {g s' : G.S}
    (h : Stays u g a s') (hl : a ≠ G.emptyMove → k + 1 < limit) {m : Match G} {r : Rec G}
    (hg : m.games (G.id g) = some (g, r)) (E : List Nat) :
    playAction a1 a2 limit (k + 1) first a g m E u = .ok ((m.put (G.id g) s' r ⟨first, g, a, s'⟩, E), u) := by
  unfold playAction
  rw [hg]
  rw [M.bind_eq (show M.lift (match some (g, r) with
    | some e => .ok e
    | none => .error Panic.unwrapNone) u = .ok ((g, r), u) from rfl)]
  simp only
  rcases h.go with ⟨ha, hs⟩ | ⟨ha, ⟨ms, hm, hmem⟩, hs, hw⟩
  · rw [if_pos ha]
    exact (M.bind_eq hs).trans rfl
  · rw [if_neg ha]
    rw [M.bind_eq (M.lift_ok.2 ⟨hm, rfl⟩)]
    rw [M.bind_eq (M.lift_ok.2 ⟨(show assert (decide (a ∈ ms)) = .ok () by unfold assert; rw [decide_eq_true hmem]; rfl), rfl⟩)]
    rw [M.bind_eq hs, hw]
    have := hl ha
    simp only
    rw [if_neg (by omega)]
    rfl

theorem playActions_stays {u : Tape} {limit k n : Nat} {C : Nat → G.S → Prop} (hid : Ids G) {a1 a2 : Agent}
    (L : List (Bool × G.Mv × G.S)) (hn : (L.map fun x => G.id x.2.2).Nodup) {m : Match G} (E : List Nat)
    (h : ∀ x ∈ L, (∃ r, m.games (G.id x.2.2) = some (x.2.2, r)) ∧
      ∃ s', Stays u x.2.2 x.2.1 s' ∧ C (k + 1) s' ∧ (x.2.1 ≠ G.emptyMove → k + 1 < limit))
    (hrest : ∀ i, i < n → (∃ x ∈ L, G.id x.2.2 = i) ∨ ∃ s r, m.games i = some (s, r) ∧ G.id s = i ∧ C (k + 1) s) :
    ∃ m', playActions a1 a2 limit (k + 1) L m E u = .ok ((m', E), u) ∧ AllOn C n (k + 1) m' := by
  induction L generalizing m with
  | nil =>
    refine ⟨m, rfl, ?_⟩
    intro i hi
    rcases hrest i hi with ⟨x, hx, -⟩ | h1
    · cases hx
    · exact h1
  | cons x L ih =>
    obtain ⟨first, a, g⟩ := x
    obtain ⟨⟨r, h1⟩, s', h2, h3, h4⟩ := h (first, a, g) (List.mem_cons_self ..)
    have hids : G.id s' = G.id g := by
      rcases h2.go with ⟨-, hs⟩ | ⟨-, -, hs, -⟩
      · exact hid.skip _ _ _ _ hs
      · exact hid.apply _ _ _ _ _ hs
    rw [List.map_cons, List.nodup_cons] at hn
    have hput : ∀ i, i ≠ G.id g → (m.put (G.id g) s' r ⟨first, g, a, s'⟩).games i = m.games i := fun i hi => if_neg hi
    obtain ⟨m', h5, h6⟩ := ih hn.2 (m := m.put (G.id g) s' r ⟨first, g, a, s'⟩) (by
      intro x hx
      obtain ⟨⟨r', q1⟩, q2⟩ := h x (List.mem_cons_of_mem _ hx)
      refine ⟨⟨r', ?_⟩, q2⟩
      rw [hput _ ?_]
      · exact q1
      · intro e
        exact hn.1 (e ▸ List.mem_map_of_mem (f := fun x : Bool × G.Mv × G.S => G.id x.2.2) hx)) (by
      intro i hi
      by_cases hig : i = G.id g
      · subst hig
        exact .inr ⟨s', r, if_pos rfl, hids, h3⟩
      · rcases hrest i hi with ⟨x, hx, e⟩ | ⟨s, r', q1, q2⟩
        · rcases List.mem_cons.1 hx with rfl | hx
          · exact absurd e.symm hig
          · exact .inl ⟨x, hx, e⟩
        · exact .inr ⟨s, r', (hput i hig).trans q1, q2⟩)
    exact ⟨m', (M.bind_eq (playAction_stays h2 h4 h1 E)).trans h5, h6⟩

theorem AllOn.pool {C : Nat → G.S → Prop} {n k : Nat} {m : Match G} (h : AllOn C n k m) {order : List Nat}
    (ho : order.Perm (m.keys n)) :
    (Versus.pool m order).map G.id = order ∧
      ∀ s ∈ Versus.pool m order, C k s ∧ ∃ r, m.games (G.id s) = some (s, r) := by
  have key : ∀ l : List Nat, (∀ i ∈ l, i < n) → (Versus.pool m l).map G.id = l ∧
      ∀ s ∈ Versus.pool m l, C k s ∧ ∃ r, m.games (G.id s) = some (s, r) := by
    intro l
    induction l with
    | nil => intro _; exact ⟨rfl, by simp [Versus.pool]⟩
    | cons i l ih =>
      intro hl
      obtain ⟨h1, h2⟩ := ih fun j hj => hl j (List.mem_cons_of_mem _ hj)
      obtain ⟨s, r, h3, h4, h5⟩ := h i (hl i (List.mem_cons_self ..))
      have e : Versus.pool m (i :: l) = s :: Versus.pool m l := by
        unfold Versus.pool
        rw [List.filterMap_cons, h3]
        rfl
      rw [e]
      refine ⟨by rw [List.map_cons, h1, h4], ?_⟩
      intro s' hs'
      rcases List.mem_cons.1 hs' with rfl | hs'
      · exact ⟨h5, r, by rw [h4]; exact h3⟩
      · exact h2 s' hs'
  refine key order fun i hi => ?_
  have := ho.mem_iff.1 hi
  unfold Match.keys at this
  exact List.mem_range.1 (List.mem_filter.1 this).1

theorem playRound_stays {u : Tape} {limit k n : Nat} {C : Nat → G.S → Prop} (hC : Forever u limit C) (hid : Ids G)
    {p1 p2 : Player Fl} (h1 : p1.agent = .random) (h2 : p2.agent = .random) (cfg : Config)
    (order1 order2 : Nat → Nat → List Nat) {m : Match G} (h : AllOn C n k m) {order : List Nat}
    (ho : order.Perm (m.keys n)) :
    ∃ m', playRound p1.agent p2.agent (fun k => getActions p1 cfg (order1 k)) (fun k => getActions p2 cfg (order2 k)) limit
      order k m u = .ok (m', u) ∧ AllOn C n (k + 1) m' := by
  obtain ⟨q1, q2⟩ := h.pool ho
  obtain ⟨as1, e1, f1⟩ := getActions_stays hC h1 cfg (order1 k)
    ((Versus.pool m order).filter fun s => decide (G.player s = -1)) fun s hs => (q2 s (List.mem_of_mem_filter hs)).1
  obtain ⟨as2, e2, f2⟩ := getActions_stays hC h2 cfg (order2 k)
    ((Versus.pool m order).filter fun s => !decide (G.player s = -1)) fun s hs => (q2 s (List.mem_of_mem_filter hs)).1
  obtain ⟨t1, t2⟩ := triples_spec f1 f2
  have hmem : ∀ s, s ∈ Versus.pool m order ↔ ∃ x ∈ triples as1 as2 (Versus.pool m order), x.2.2 = s := by
    intro s
    rw [← t1.mem_iff, List.mem_map]
  have hkeys : ∀ i, i < n → i ∈ order := by
    intro i hi
    rw [ho.mem_iff]
    unfold Match.keys
    obtain ⟨s, r, h3, -⟩ := h i hi
    rw [List.mem_filter, List.mem_range, h3]
    exact ⟨hi, rfl⟩
  obtain ⟨m', e3, h3⟩ := playActions_stays (k := k) (limit := limit) (n := n) (C := C) (u := u) (a1 := p1.agent)
    (a2 := p2.agent) hid (triples as1 as2 (Versus.pool m order)) (by
      have := (t1.map G.id).nodup_iff.2 (by
        rw [q1]
        refine (ho.nodup_iff).2 ?_
        exact List.Nodup.filter _ List.nodup_range)
      rwa [List.map_map] at this) (m := m) [] (by
      intro x hx
      refine ⟨(q2 _ ((hmem _).2 ⟨x, hx, rfl⟩)).2, ?_⟩
      have := (t2 x hx).2
      by_cases hf : x.1 = true
      · rwa [if_pos hf] at this
      · rwa [if_neg hf] at this) (by
      intro i hi
      have := hkeys i hi
      rw [← q1] at this
      obtain ⟨s, hs, e⟩ := List.mem_map.1 this
      obtain ⟨x, hx, e'⟩ := (hmem s).1 hs
      exact .inl ⟨x, hx, by rw [e', e]⟩)
  refine ⟨m', ?_, h3⟩
  rw [playRound_eq]
  exact (M.bind_eq e1).trans ((M.bind_eq e2).trans ((M.bind_eq e3).trans rfl))

/-- The loop never ends: every bound on the number of rounds is reached. -/
theorem playLoop_endless {u : Tape} {limit n : Nat} {C : Nat → G.S → Prop} (hC : Forever u limit C) (hid : Ids G)
    {p1 p2 : Player Fl} (h1 : p1.agent = .random) (h2 : p2.agent = .random) (cfg : Config)
    (order1 order2 : Nat → Nat → List Nat) (hn : 0 < n) {order : Nat → List Nat → List Nat}
    (ho : ∀ k l, (order k l).Perm l) (f k : Nat) {m : Match G} (h : AllOn C n k m) :
    playLoop p1.agent p2.agent (fun k => getActions p1 cfg (order1 k)) (fun k => getActions p2 cfg (order2 k)) n limit
      order f k m u = .error .fuel := by
  have hkeys : ∀ {k : Nat} {m : Match G}, AllOn C n k m → ¬ (m.keys n).isEmpty = true := by
    intro k m h he
    have : 0 ∈ m.keys n := by
      unfold Match.keys
      obtain ⟨s, r, h3, -⟩ := h 0 hn
      rw [List.mem_filter, List.mem_range, h3]
      exact ⟨hn, rfl⟩
    rw [List.isEmpty_iff.1 he] at this
    cases this
  induction f generalizing k m with
  | zero =>
    unfold playLoop
    rw [if_neg (hkeys h)]
    rfl
  | succ f ih =>
    unfold playLoop
    rw [if_neg (hkeys h)]
    obtain ⟨m', e, h'⟩ := playRound_stays hC hid h1 h2 cfg order1 order2 h (ho k (m.keys n))
    exact (M.bind_eq e).trans (ih (k + 1) h')

theorem initGames_stays {u : Tape} {C : Nat → G.S → Prop} {n : Nat} (hid : Ids G)
    (hinit : ∀ i, i < n → ∃ s, initState G n i u = .ok (s, u) ∧ C 0 s) (a1 a2 : Agent) (is : List Nat) (his : is.Nodup)
    (hlt : ∀ i ∈ is, i < n) (g : Nat → Option (G.S × Rec G)) :
    ∃ g', initGames a1 a2 n is g u = .ok (g', u) ∧ (∀ i, i ∉ is → g' i = g i) ∧
      ∀ i ∈ is, ∃ s r, g' i = some (s, r) ∧ G.id s = i ∧ C 0 s := by
  induction is generalizing g with
  | nil => exact ⟨g, rfl, fun _ _ => rfl, by simp⟩
  | cons i is ih =>
    rw [List.nodup_cons] at his
    obtain ⟨s, h1, h2⟩ := hinit i (hlt i (List.mem_cons_self ..))
    obtain ⟨g', h3, h4, h5⟩ := ih his.2 (fun j hj => hlt j (List.mem_cons_of_mem _ hj))
      (fun j => if j = i then some (s, Rec.new i a1 a2 s) else g j)
    have hids : G.id s = i := by
      obtain ⟨s1, t1, -, h6⟩ := M.bind_ok.1 h1
      obtain ⟨s2, t2, -, h7⟩ := M.bind_ok.1 h6
      obtain ⟨rfl, -⟩ := Prod.mk.inj (Except.ok.inj h7)
      exact hid.setId _ _
    refine ⟨g', (M.bind_eq h1).trans h3, ?_, ?_⟩
    · intro j hj
      rw [List.mem_cons, not_or] at hj
      rw [h4 j hj.2]
      exact if_neg hj.1
    · intro j hj
      by_cases hji : j = i
      · subst hji
        exact ⟨s, _, (h4 j his.1).trans (if_pos rfl), hids, h2⟩
      · rcases List.mem_cons.1 hj with rfl | hj
        · exact absurd rfl hji
        · exact h5 j hj

theorem playN_endless {u : Tape} {limit n : Nat} {C : Nat → G.S → Prop} (hC : Forever u limit C) (hid : Ids G)
    (hinit : ∀ i, i < n → ∃ s, initState G n i u = .ok (s, u) ∧ C 0 s) {p1 p2 : Player Fl} (h1 : p1.agent = .random)
    (h2 : p2.agent = .random) (pf : Profile) (rnd : Rat → Rat) (cfg : Config) (hn : 0 < n) {o : Orders} (ho : o.Valid)
    (f : Nat) : playN (G := G) pf rnd p1 p2 cfg n limit o f u = .error .fuel := by
  obtain ⟨g, e1, -, e2⟩ := initGames_stays hid hinit p1.agent p2.agent (List.range n) List.nodup_range
    (fun i hi => List.mem_range.1 hi) (fun _ => none)
  have : playRun (G := G) p1.agent p2.agent (fun k => getActions p1 cfg (o.set1 k)) (fun k => getActions p2 cfg (o.set2 k)) n
      limit o.map f u = .error .fuel :=
    (M.bind_eq e1).trans (playLoop_endless hC hid h1 h2 cfg o.set1 o.set2 hn ho.map f 0
      fun i hi => e2 i (List.mem_range.2 hi))
  exact M.bind_err this

end DieE.Versus
