import Verif.Versus.Sure

/-!
# Matches that take long

The results of `Verif.Versus.Sure` for finitely many rounds: if a match is not over after `F` rounds, one of its games only
passed from the round limit to round `F`, and the position on the tape is bounded in every round.
-/

namespace DieE.Versus
open DieE.Mcts

variable {G : Game} {Fl : Floats}

/-- The match goes on from `x` (match and tape) in round `k` and is not over after `f` more rounds. -/
def Slow (R : G.S → Prop) (a1 a2 : Agent) (acts1 acts2 : Acts G) (n limit : Nat) (order : Nat → List Nat → List Nat)
    (init : Nat → G.S) (k f : Nat) (x : Match G × Tape × List Nat) : Prop :=
  Inv R a1 a2 Legal Legal n limit init k x.2.2 x.1 ∧ ∀ r, playLoop a1 a2 acts1 acts2 n limit order f k x.1 x.2.1 ≠ .ok r

theorem slow_keys {R : G.S → Prop} {a1 a2 : Agent} {acts1 acts2 : Acts G} {n limit : Nat} {init : Nat → G.S}
    {order : Nat → List Nat → List Nat} {k f : Nat} {x : Match G × Tape × List Nat}
    (h : Slow R a1 a2 acts1 acts2 n limit order init k f x) : x.1.keys n ≠ [] := by
  obtain ⟨m, t, D⟩ := x
  intro he
  refine h.2 (m, t) ?_
  show playLoop a1 a2 acts1 acts2 n limit order f k m t = _
  have he' : (m.keys n).isEmpty = true := List.isEmpty_iff.2 he
  cases f with
  | zero =>
    unfold playLoop
    rw [if_pos he']
    rfl
  | succ f =>
    unfold playLoop
    rw [if_pos he']
    rfl

theorem slow_next {R : G.S → Prop} (hid : Ids G) (hcl : Closed G R) (hr : Runs G R) {a1 a2 : Agent}
    {acts1 acts2 : Acts G} (hA1 : Able R acts1) (hA2 : Able R acts2) {n limit : Nat} {init : Nat → G.S}
    {order : Nat → List Nat → List Nat} (ho : ∀ k l, (order k l).Perm l) {k f : Nat} {x : Match G × Tape × List Nat}
    (h : Slow R a1 a2 acts1 acts2 n limit order init k (f + 1) x) :
    ∃ y, Next a1 a2 acts1 acts2 n limit order k x y ∧ Slow R a1 a2 acts1 acts2 n limit order init (k + 1) f y := by
  have hne : ¬ (x.1.keys n).isEmpty = true := fun he => slow_keys h (List.isEmpty_iff.1 he)
  obtain ⟨m, t, D⟩ := x
  obtain ⟨hinv, hnever⟩ := h
  obtain ⟨m', t', E, h1, h2⟩ := playRound_ok hid hcl hr hA1 hA2 hinv (ho k (m.keys n)) t
  refine ⟨(m', t', D ++ E), ⟨h1, E, rfl⟩, h2, fun r e => ?_⟩
  refine hnever r ?_
  show playLoop a1 a2 acts1 acts2 n limit order (f + 1) k m t = _
  unfold playLoop
  rw [if_neg hne]
  exact (M.bind_eq h1).trans e

/-- The rounds of a match that is not over after `F` rounds. -/
theorem slow_rounds {R : G.S → Prop} (hid : Ids G) (hcl : Closed G R) (hr : Runs G R) {a1 a2 : Agent}
    {acts1 acts2 : Acts G} (hA1 : Able R acts1) (hA2 : Able R acts2) {n limit : Nat} {init : Nat → G.S}
    {order : Nat → List Nat → List Nat} (ho : ∀ k l, (order k l).Perm l) (f : Nat) {k : Nat} {x0 : Match G × Tape × List Nat}
    (h : Slow R a1 a2 acts1 acts2 n limit order init k f x0) :
    ∃ x : Nat → Match G × Tape × List Nat, x k = x0 ∧ ∀ j, k ≤ j → j ≤ k + f →
      Inv R a1 a2 Legal Legal n limit init j (x j).2.2 (x j).1 ∧ (x j).1.keys n ≠ [] ∧
      (j < k + f → Next a1 a2 acts1 acts2 n limit order j (x j) (x (j + 1))) := by
  induction f generalizing k x0 with
  | zero =>
    refine ⟨fun _ => x0, rfl, fun j h1 h2 => ?_⟩
    obtain rfl : j = k := by omega
    exact ⟨h.1, slow_keys h, fun h3 => absurd h3 (by omega)⟩
  | succ f ih =>
    obtain ⟨y, hy, hs⟩ := slow_next hid hcl hr hA1 hA2 ho h
    obtain ⟨x, e, hx⟩ := ih hs
    refine ⟨fun j => if j = k then x0 else x j, if_pos rfl, fun j h1 h2 => ?_⟩
    by_cases hj : j = k
    · subst hj
      simp only [if_true]
      refine ⟨h.1, slow_keys h, fun _ => ?_⟩
      rw [if_neg (by omega), e]
      exact hy
    · simp only [if_neg hj]
      obtain ⟨q1, q2, q3⟩ := hx j (by omega) (by omega)
      refine ⟨q1, q2, fun h3 => ?_⟩
      rw [if_neg (by omega)]
      exact q3 (by omega)

/-- In such a match one game is not over after `F` rounds. -/
theorem slow_game {R : G.S → Prop} (hid : Ids G) (hcl : Closed G R) (hr : Runs G R) (hb : Begins G R) {a1 a2 : Agent}
    {acts1 acts2 : Acts G} (hA1 : Able R acts1) (hA2 : Able R acts2) {n limit : Nat}
    {order : Nat → List Nat → List Nat} (ho : ∀ k l, (order k l).Perm l) {F : Nat} {t : Tape}
    (h : ∀ r, playRun a1 a2 acts1 acts2 n limit order F t ≠ .ok r) :
    ∃ (init : Nat → G.S) (x : Nat → Match G × Tape) (i : Nat) (s : Nat → G.S),
      (∃ g : Nat → Option (G.S × Rec G), initGames a1 a2 n (List.range n) (fun _ => none) t = .ok (g, (x 0).2)) ∧
      (∀ k ≤ F, Live R a1 a2 Legal Legal limit init (x k).1 k i (s k) ∧ (∃ D, Inv R a1 a2 Legal Legal n limit init k D (x k).1)) ∧
      ∀ k < F, playRound a1 a2 acts1 acts2 limit (order k ((x k).1.keys n)) k (x k).1 (x k).2 = .ok (x (k + 1)) := by
  obtain ⟨g, t1, h1⟩ := initGames_ok hb a1 a2 n (List.range n) (fun _ => none) t
  have hst : ∀ i u s u', initState G n i u = .ok (s, u') → R s := by
    intro i u s u' h
    obtain ⟨s', u'', h2, h3⟩ := hb n i u
    rw [h] at h2
    obtain ⟨rfl, -⟩ := Prod.mk.inj (Except.ok.inj h2)
    exact h3
  obtain ⟨init, -, h3⟩ := initGames_inv (R := R) (A1 := Legal) (A2 := Legal) (limit := limit) hid hst h1
  have h0 : Slow R a1 a2 acts1 acts2 n limit order init 0 F
      ({ games := g, played := [], wins1 := 0, wins2 := 0, steps := fun _ => [] }, t1, []) :=
    ⟨h3, fun r e => h r ((M.bind_eq h1).trans e)⟩
  obtain ⟨x, e0, hx⟩ := slow_rounds hid hcl hr hA1 hA2 ho F h0
  have mono : ∀ k j, k + j ≤ F → (x k).2.2 ⊆ (x (k + j)).2.2 := by
    intro k j
    induction j with
    | zero => exact fun _ a ha => ha
    | succ j ih =>
      intro hF
      obtain ⟨E, hE⟩ := ((hx (k + j) (by omega) (by omega)).2.2 (by omega)).2
      intro a ha
      show a ∈ (x (k + j + 1)).2.2
      rw [hE]
      exact List.mem_append_left _ (ih (by omega) ha)
  obtain ⟨i, hi⟩ := List.exists_mem_of_ne_nil _ (hx F (by omega) (by omega)).2.1
  unfold Match.keys at hi
  rw [List.mem_filter, List.mem_range] at hi
  have hlive : ∀ k ≤ F, i ∉ (x k).2.2 := by
    intro k hk hm
    have hm' := mono k (F - k) (by omega) hm
    rw [show k + (F - k) = F by omega] at hm'
    have hgone := (hx F (by omega) (by omega)).1.gone i hm'
    rw [hgone] at hi
    exact absurd hi.2 (by simp)
  have hl : ∀ k, ∃ s, k ≤ F → Live R a1 a2 Legal Legal limit init (x k).1 k i s := by
    intro k
    by_cases hk : k ≤ F
    · rcases ((hx k (by omega) (by omega)).1.part i).1 hi.1 with h1 | h1
      · exact absurd h1 (hlive k hk)
      · obtain ⟨s, hs⟩ := h1
        exact ⟨s, fun _ => hs⟩
    · exact ⟨init 0, fun h => absurd h hk⟩
  choose s hs using hl
  refine ⟨init, fun k => ((x k).1, (x k).2.1), i, s, ⟨g, ?_⟩, fun k hk => ⟨hs k hk, _, (hx k (by omega) (by omega)).1⟩, fun k hk => ?_⟩
  · show _ = Except.ok (g, (x 0).2.1)
    rw [e0]
    exact h1
  · exact ((hx k (by omega) (by omega)).2.2 (by omega)).1

/-- A match that is not over after `F` rounds has a game that only passed from the round limit on: there are no moves in
the states `s k`, and the dice come from the tape, which is at position `p k` in round `k`. -/
theorem slow_passes {R : G.S → Prop} (hid : Ids G) (hcl : Closed G R) (hr : Runs G R) (hb : Begins G R)
    (hne : ∀ s ms, G.moves s = .ok ms → R s → G.emptyMove ∉ ms) {n c d e : Nat} (hc : Frugal G c) (hinit : ∀ i, Cost e (initState G n i))
    {a1 a2 : Agent} {acts1 acts2 : Acts G} (hA1 : Able R acts1) (hA2 : Able R acts2) (hT1 : Thrifty R d acts1)
    (hT2 : Thrifty R d acts2) {limit : Nat} {order : Nat → List Nat → List Nat} (ho : ∀ k l, (order k l).Perm l) {F : Nat} {t : Tape}
    (h : ∀ r, playRun a1 a2 acts1 acts2 n limit order F t ≠ .ok r) :
    ∃ (s : Nat → G.S) (p : Nat → Nat), p 0 ≤ e * n ∧ (∀ k < F, p (k + 1) ≤ p k + (2 * d + 2 * c) * n) ∧
      ∀ k < F, limit ≤ k + 1 → R (s k) ∧ R (s (k + 1)) ∧ G.moves (s k) = .ok [] ∧ p k < p (k + 1) ∧
      ∃ q u, p k ≤ q ∧ q ≤ p k + (2 * d + 2 * c) * n ∧ G.skip (s k) (skipTape q t) = .ok (s (k + 1), u) := by
  obtain ⟨init, x, i, s, ⟨g, h0⟩, hx, hxr⟩ := slow_game hid hcl hr hb hA1 hA2 ho h
  have hord : ∀ k, (order k ((x k).1.keys n)).length ≤ n := by
    intro k
    rw [(ho k _).length_eq]
    unfold Match.keys
    exact (List.length_filter_le _ _).trans (by rw [List.length_range])
  have hstep : ∀ k, ∃ j, k < F → j ≤ (2 * d + 2 * c) * n ∧ (x (k + 1)).2 = skipTape j (x k).2 ∧
      Adds ((2 * d + 2 * c) * n) (x k).2 (x k).1 (x (k + 1)).1 j := by
    intro k
    by_cases hk : k < F
    · obtain ⟨D, hD⟩ := (hx k (by omega)).2
      obtain ⟨j, hj, e1, e2⟩ := playRound_adds hc hT1 hT2 (fun s hs => ((hD.pool (ho k _)).2 s hs).ok) (hxr k hk)
      have hle := Nat.mul_le_mul_left (2 * d + 2 * c) (hord k)
      refine ⟨j, fun _ => ⟨by omega, e1, fun i => ?_⟩⟩
      obtain ⟨l, q1, q2⟩ := e2 i
      refine ⟨l, q1, fun st hst he => ?_⟩
      obtain ⟨r1, k', r2, r3⟩ := q2 st hst he
      exact ⟨r1, k', by omega, r3⟩
    · exact ⟨0, fun h => absurd h hk⟩
  choose j hj using hstep
  have hini : ∃ p0 ≤ e * n, (x 0).2 = skipTape p0 t := by
    have key : ∀ is (g : Nat → Option (G.S × Rec G)), Cost (e * is.length) (initGames a1 a2 n is g) := by
      intro is
      induction is with
      | nil => exact fun g => cost_pure _ _
      | cons i is ih =>
        intro g
        rw [List.length_cons, Nat.mul_add, Nat.mul_one, Nat.add_comm]
        exact cost_bind (hinit i) fun _ => ih _
    obtain ⟨p0, hle, hp0⟩ := key _ _ _ _ _ h0
    rw [List.length_range] at hle
    exact ⟨p0, hle, hp0⟩
  obtain ⟨p0, hp00, hp0⟩ := hini
  let p : Nat → Nat := fun k => Nat.rec p0 (fun k q => q + j k) k
  have hp : ∀ k, p (k + 1) = p k + j k := fun k => rfl
  have hpt : ∀ k ≤ F, (x k).2 = skipTape (p k) t := by
    intro k
    induction k with
    | zero => exact fun _ => hp0
    | succ k ih =>
      intro hk
      rw [(hj k (by omega)).2.1, ih (by omega), skipTape_add, hp]
  refine ⟨s, p, hp00, fun k hk => by rw [hp]; have := (hj k hk).1; omega, fun k hkF hk => ?_⟩
  have hk0 := (hx k (by omega)).1
  have hk1 := (hx (k + 1) (by omega)).1
  obtain ⟨hj1, -, hj3⟩ := hj k hkF
  obtain ⟨l, q1, q2⟩ := hj3 i
  have hlen : l.length = 1 := by
    have := congrArg List.length q1
    rw [List.length_append, hk0.len, hk1.len] at this
    omega
  obtain ⟨st, rfl⟩ := List.length_eq_one_iff.1 hlen
  have hlink := hk1.link
  rw [q1] at hlink
  obtain ⟨b1, b2⟩ := linked_last hk0.link hlink
  have hget : ((x (k + 1)).1.steps i)[k]? = some st := by
    rw [q1, List.getElem?_append_right (by rw [hk0.len]), hk0.len, Nat.sub_self]
    rfl
  have hpass : st.action = G.emptyMove := hk1.passes k hk hget
  have hmem : st ∈ (x (k + 1)).1.steps i := List.mem_of_getElem? hget
  obtain ⟨-, hch⟩ := hk1.chosen st hmem
  have hlegal : Legal st.before st.action := by
    by_cases hf : st.first = true
    · rwa [if_pos hf] at hch
    · rwa [if_neg hf] at hch
  obtain ⟨ms, hm1, hm2⟩ := hlegal
  rw [b1] at hm1
  have hms : ms = [] := by
    rcases hm2 with hm2 | hm2
    · rw [hpass] at hm2
      exact absurd hm2 (hne _ _ hm1 hk0.ok)
    · exact hm2.1
  obtain ⟨r1, k', r2, u, r3⟩ := q2 st (List.mem_singleton.2 rfl) hpass
  rw [b1, b2, hpt k (by omega), skipTape_add] at r3
  refine ⟨hk0.ok, hk1.ok, by rw [hm1, hms], by rw [hp]; omega, p k + k', u, by omega, by omega, r3⟩

end DieE.Versus
