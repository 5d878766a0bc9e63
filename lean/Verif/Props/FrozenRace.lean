import Verif.Mcts.Line
import Verif.Props.Explore

/-!
# The race between a good and a bad move whose rolls came out the wrong way round

Used by C106.
-/

namespace DieE.Props.Fz
open DieE DieE.Mcts DieE.Props.S DieE.Props.Wn
variable {G : Game} {Fl : Floats} {B : Nat}

/-! ## Scores -/

/-- A child with as many visits as the other and a mean lower by a half has the lower score. -/
theorem score_level {c ε : ℝ} (hc : 0 ≤ c) (hε : ε ≤ 1 / 2 ^ 16) {K m p : Nat} (hm : 0 < m) (hmK : m ≤ K) (hK : 2 ≤ K)
    (hp : 0 < p) {z : Int} (hz : 0 ≤ z) :
    ((1 - (K : Int) : Int) : ℝ) / K + Real.sqrt (c * Real.log p / K) + 2 * ε < (z : ℝ) / m + Real.sqrt (c * Real.log p / m) := by
  have hm' : (0 : ℝ) < m := by exact_mod_cast hm
  have hK' : (2 : ℝ) ≤ K := by exact_mod_cast hK
  have hmK' : (m : ℝ) ≤ K := by exact_mod_cast hmK
  have hp1 : (1 : ℝ) ≤ p := by exact_mod_cast hp
  have hx : 0 ≤ c * Real.log p := mul_nonneg hc (Real.log_nonneg hp1)
  have h1 : Real.sqrt (c * Real.log p / K) ≤ Real.sqrt (c * Real.log p / m) :=
    Real.sqrt_le_sqrt (div_le_div_of_nonneg_left hx hm' hmK')
  have h2 : 0 ≤ (z : ℝ) / m := div_nonneg (by exact_mod_cast hz) hm'.le
  have h3 : ((1 - (K : Int) : Int) : ℝ) / K ≤ -1 / 2 := by
    rw [div_le_iff₀ (by linarith)]
    push_cast
    linarith
  have h4 : ε ≤ 1 / 100 := hε.trans (by norm_num)
  linarith

theorem log_small {m p : Nat} (hm : 8 ≤ m) (hp : 0 < p) (hpm : p ≤ 2 * m) : 2 * Real.log p ≤ m - 1 := by
  have hp' : (0 : ℝ) < p := by exact_mod_cast hp
  have hm' : (8 : ℝ) ≤ m := by exact_mod_cast hm
  have hpm' : (p : ℝ) ≤ 2 * m := by exact_mod_cast hpm
  have h1 : Real.log p = Real.log ((2 : ℝ) ^ 3) + Real.log (p / 2 ^ 3) := by
    rw [← Real.log_mul (by norm_num) (by positivity)]
    congr 1
    field_simp
  have h2 := Real.log_le_sub_one_of_pos (show (0 : ℝ) < p / 2 ^ 3 by positivity)
  rw [Real.log_pow] at h1
  have h3 := Real.log_two_lt_d9
  push_cast at h1
  have h4 : (p : ℝ) / 2 ^ 3 ≤ m / 4 := by
    rw [div_le_div_iff₀ (by norm_num) (by norm_num)]
    linarith
  linarith

/-- From eight visits on the better mean outweighs one visit more. -/
theorem score_close {c ε : ℝ} (hc : 0 ≤ c) (hc2 : c ≤ 2) (hε : ε ≤ 1 / 2 ^ 16) {K m p : Nat} (hm : 8 ≤ m) (hK : K + 1 = m)
    (hp : 0 < p) (hpm : p ≤ 2 * m) {z : Int} (hz : (m : Int) - 2 ≤ z) :
    ((1 - (K : Int) : Int) : ℝ) / K + Real.sqrt (c * Real.log p / K) + 2 * ε < (z : ℝ) / m + Real.sqrt (c * Real.log p / m) := by
  have hm' : (8 : ℝ) ≤ m := by exact_mod_cast hm
  have hKm : (K : ℝ) + 1 = m := by exact_mod_cast hK
  have hp1 : (1 : ℝ) ≤ p := by exact_mod_cast hp
  have hlog : 0 ≤ Real.log p := Real.log_nonneg hp1
  have h1 : Real.sqrt (c * Real.log p / K) ≤ 1 := by
    rw [Real.sqrt_le_one]
    rw [div_le_one (by linarith)]
    have := log_small hm hp hpm
    nlinarith
  have h2 : 3 / 4 ≤ (z : ℝ) / m := by
    rw [le_div_iff₀ (by linarith)]
    have : ((m : Int) - 2 : ℝ) ≤ (z : ℝ) := by exact_mod_cast hz
    push_cast at this
    linarith
  have h3 : ((1 - (K : Int) : Int) : ℝ) / K ≤ -6 / 7 := by
    rw [div_le_iff₀ (by linarith)]
    push_cast
    linarith
  have h4 : ε ≤ 1 / 100 := hε.trans (by norm_num)
  have h5 := Real.sqrt_nonneg (c * Real.log p / m)
  linarith

/-! ## What the rolls are -/

/-- One reply, and it wins for `w`. -/
def Ends (G : Game) (w : Int) (s : G.S) : Prop :=
  G.winner s = none ∧ ∃ a, G.moves s = .ok [a] ∧ ∀ s', Plays G s a s' → G.winner s' = some w

/-- One reply. -/
def Forced (G : Game) (s : G.S) : Prop := G.winner s = none ∧ ∃ a, G.moves s = .ok [a]

/-- The rolls in a tree: after the good move the opponent wins at once, after the bad move not, and then the player wins
at once.  (A position includes the roll of the player to move.) -/
structure Rolls (x y : G.Mv) (player : Int) (st : Store G Fl) : Prop where
  good : ∀ (c : Nat) (n : Node G Fl), RootChild st c n → n.action = some x → Ends G (-player) n.state
  bad : ∀ (c : Nat) (n : Node G Fl), RootChild st c n → n.action = some y → Forced G n.state
  next : ∀ (c d : Nat) (n m : Node G Fl), RootChild st c n → n.action = some y → st[d]? = some m → m.parent = some c →
    Ends G player m.state

/-- Nodes of `st` are in `st'`, with the same position, parent and action. -/
def Grows (st st' : Store G Fl) : Prop :=
  ∀ (j : Nat) (m : Node G Fl), st[j]? = some m → ∃ m' : Node G Fl, st'[j]? = some m' ∧ m'.parent = m.parent ∧
    m'.state = m.state ∧ m'.action = m.action

theorem Grows.trans {st st1 st2 : Store G Fl} (h1 : Grows st st1) (h2 : Grows st1 st2) : Grows st st2 := by
  intro j m hj
  obtain ⟨m1, a1, a2, a3, a4⟩ := h1 j m hj
  obtain ⟨m2, b1, b2, b3, b4⟩ := h2 j m1 a1
  exact ⟨m2, b1, b2.trans a2, b3.trans a3, b4.trans a4⟩

theorem Rolls.before {x y : G.Mv} {player : Int} {st st' : Store G Fl} (r : Rolls x y player st') (g : Grows st st') :
    Rolls x y player st := by
  refine ⟨?_, ?_, ?_⟩
  · intro c n hc ha
    obtain ⟨m, h1, h2, h3, h4⟩ := g c n hc.1
    rw [← h3]
    exact r.good c m ⟨h1, by rw [h2]; exact hc.2⟩ (by rw [h4]; exact ha)
  · intro c n hc ha
    obtain ⟨m, h1, h2, h3, h4⟩ := g c n hc.1
    rw [← h3]
    exact r.bad c m ⟨h1, by rw [h2]; exact hc.2⟩ (by rw [h4]; exact ha)
  · intro c d n m hc ha hd hp
    obtain ⟨n', h1, h2, -, h4⟩ := g c n hc.1
    obtain ⟨m', k1, k2, k3, -⟩ := g d m hd
    rw [← k3]
    exact r.next c d n' m' ⟨h1, by rw [h2]; exact hc.2⟩ (by rw [h4]; exact ha) k1 (by rw [k2]; exact hp)

theorem iteration_grows {player : Int} {limit : Nat} {st st' : Store G Fl} {k N : Nat} {t t' : Tape} (v : WinInv player st N)
    (hl : 0 < limit) (h : iteration player limit 0 st t = .ok ((st', k), t')) : Grows st st' := by
  obtain ⟨rn, hrn, -⟩ := v.root
  obtain ⟨i, s, -, -, h3⟩ := iteration_digest v.wf v.term hl (List.getElem?_eq_some_iff.1 hrn).1 h
  intro j m hj
  obtain ⟨m', g1, g2, g3, g4, -⟩ := h3 j m hj
  exact ⟨m', g1, g2, g3, g4⟩

/-- Below the node of the good move all nodes are lost. -/
theorem below_good {x y : G.Mv} {player : Int} {st : Store G Fl} {N : Nat} (v : WinInv player st N)
    (r : Rolls x y player st) {c : Nat} {n : Node G Fl} (hc : RootChild st c n) (ha : n.action = some x) {i : Nat}
    (h : Anc st c i) : i = c ∨ ∃ m : Node G Fl, st[i]? = some m ∧ m.parent = some c ∧ G.winner m.state = some (-player) := by
  induction h with
  | refl => exact .inl rfl
  | @step k p kn g1 g2 g3 ih =>
    right
    obtain ⟨-, pn, -, k1, k2, -, -⟩ := v.wf.up k kn p g1 g2
    rcases ih with rfl | ⟨m, e1, -, e3⟩
    · rw [hc.1] at k1
      cases Option.some.inj k1
      obtain ⟨-, b, hb, hall⟩ := r.good p n hc ha
      obtain ⟨a, ms, -, d1, d2, d3⟩ := child_legal v.wf hc.1 k2 g1
      rw [hb] at d1
      cases Except.ok.inj d1
      rw [List.mem_singleton] at d2
      subst d2
      exact ⟨kn, g1, g2, hall _ d3⟩
    · rw [e1] at k1
      cases Option.some.inj k1
      rw [v.term p pn e1 (by rw [e3]; simp)] at k2
      cases k2

/-- Below the node of the bad move all nodes other than its children are won. -/
theorem below_bad {x y : G.Mv} {player : Int} {st : Store G Fl} {N : Nat} (v : WinInv player st N)
    (r : Rolls x y player st) {c : Nat} {n : Node G Fl} (hc : RootChild st c n) (ha : n.action = some y) {i : Nat}
    (h : Anc st c i) : i = c ∨ (∃ m : Node G Fl, st[i]? = some m ∧ m.parent = some c ∧ G.winner m.state = none) ∨
      ∃ (d : Nat) (m : Node G Fl), st[i]? = some m ∧ m.parent = some d ∧ d ≠ c ∧ G.winner m.state = some player := by
  induction h with
  | refl => exact .inl rfl
  | @step k p kn g1 g2 g3 ih =>
    right
    obtain ⟨-, pn, -, k1, k2, -, -⟩ := v.wf.up k kn p g1 g2
    rcases ih with rfl | ⟨m, e1, e2, e3⟩ | ⟨d, m, e1, -, -, e3⟩
    · exact .inl ⟨kn, g1, g2, (r.next p k n kn hc ha g1 g2).1⟩
    · rw [e1] at k1
      cases Option.some.inj k1
      obtain ⟨-, b, hb, hall⟩ := r.next c p n pn hc ha e1 e2
      obtain ⟨a, ms, -, d1, d2, d3⟩ := child_legal v.wf e1 k2 g1
      rw [hb] at d1
      cases Except.ok.inj d1
      rw [List.mem_singleton] at d2
      subst d2
      refine .inr ⟨p, kn, g1, g2, ?_, hall _ d3⟩
      have := (v.wf.up p pn c e1 e2).1
      omega
    · rw [e1] at k1
      cases Option.some.inj k1
      rw [v.term p pn e1 (by rw [e3]; simp)] at k2
      cases k2

/-! ## The race -/

/-- What holds after `N` iterations. -/
structure Count (x y : G.Mv) (st : Store G Fl) (N : Nat) : Prop where
  good : ∀ (c : Nat) (n : Node G Fl), RootChild st c n → n.action = some x → n.value = Fl.ofInt (1 - n.visits)
  bad : ∀ (c : Nat) (n : Node G Fl), RootChild st c n → n.action = some y →
    n.value = Fl.ofInt (n.visits - 1 - n.children.length) ∧ n.children.length + 1 ≤ n.visits
  opening : ∀ rn : Node G Fl, st[0]? = some rn → rn.expandable ≠ [] → N = rn.children.length
  total : ∀ (a b : Nat) (an bn : Node G Fl), RootChild st a an → RootChild st b bn → an.action = some x →
    bn.action = some y → an.visits + bn.visits = N
  lead : ∀ (a b : Nat) (an bn : Node G Fl), RootChild st a an → RootChild st b bn → an.action = some x →
    bn.action = some y → an.visits ≤ max 2 bn.visits ∧ (8 ≤ bn.visits → an.visits < bn.visits)

theorem forced_children {st : Store G Fl} (w : WellFormed st) {i : Nat} {n : Node G Fl} (hi : st[i]? = some n)
    (h : Forced G n.state) : n.children.length ≤ 1 ∧ (n.expandable ≠ [] → n.children = []) := by
  obtain ⟨-, a, ha⟩ := h
  obtain ⟨ms, h1, h2⟩ := w.part i n hi
  rw [ha] at h1
  cases Except.ok.inj h1
  have h3 := h2.length_eq
  rw [List.length_append, childActions_length w hi] at h3
  simp only [List.length_singleton] at h3
  refine ⟨by omega, fun hne => List.length_eq_zero_iff.1 ?_⟩
  have := List.length_pos_iff.2 hne
  omega

theorem outcome_lost {player : Int} (hp : player ≠ 0) : outcome (-player) player = -1 := by
  unfold outcome
  rw [if_neg (by omega), if_pos rfl]

theorem outcome_won (player : Int) : outcome player player = 1 := by
  unfold outcome
  rw [if_pos rfl]

/-- The values after one more iteration. -/
theorem Count.values {x y : G.Mv} {player : Int} (hp : player ≠ 0) (hB : B ≤ 16777216) (A : IntAdd Fl B) {limit N : Nat}
    {st st' : Store G Fl} {k : Nat} {t t' : Tape} (hl : 0 < limit) (hN : N < B) (v : WinInv player st N)
    (h : iteration player limit 0 st t = .ok ((st', k), t')) (r : Rolls x y player st') (q : Count x y st N) :
    (∀ (c : Nat) (n : Node G Fl), RootChild st' c n → n.action = some x → n.value = Fl.ofInt (1 - n.visits)) ∧
    (∀ (c : Nat) (n : Node G Fl), RootChild st' c n → n.action = some y →
      n.value = Fl.ofInt (n.visits - 1 - n.children.length) ∧ n.children.length + 1 ≤ n.visits) := by
  classical
  have v' := (v.step hB A hl hN h).1
  have r0 := r.before (iteration_grows v hl h)
  obtain ⟨rn, hrn, hrw⟩ := v.root
  have hlen : 0 < st.length := (List.getElem?_eq_some_iff.1 hrn).1
  obtain ⟨i, n, -, h2, -, h4⟩ := iteration_detail v.wf hl hlen h
  have hvis : ∀ (j : Nat) (m : Node G Fl), st[j]? = some m → vinc m.visits = m.visits + 1 := fun j m hj =>
    vinc_lt hB (Nat.lt_of_le_of_lt (v.bound j m hj) hN)
  rcases h4 with ⟨wn, hw, hlen', hrec⟩ | ⟨hw, f, f1, f2, f3, f4, hex, hlen', hnew, hrec⟩
  · have back : ∀ (c : Nat) (n' : Node G Fl), RootChild st' c n' → ∃ m, RootChild st c m ∧
        n' = (if Anc st c i then m.record (Fl.ofInt (outcome wn player)) else m) := by
      intro c n' hc
      have hcl := (List.getElem?_eq_some_iff.1 hc.1).1
      obtain ⟨m, hm⟩ : ∃ m, st[c]? = some m := ⟨_, List.getElem?_eq_getElem (by omega)⟩
      have hm' := hrec c m hm
      rw [hc.1] at hm'
      have e := Option.some.inj hm'
      refine ⟨m, ⟨hm, ?_⟩, e⟩
      have := hc.2
      rw [e] at this
      split at this <;> exact this
    refine ⟨?_, ?_⟩
    · intro c n' hc ha
      obtain ⟨m, hm, e⟩ := back c n' hc
      have ham : m.action = some x := by
        rw [e] at ha
        split at ha <;> exact ha
      have hq := q.good c m hm ham
      have hb := v.bound c m hm.1
      have hpos := v.pos c m hm.1 hm.2
      rw [e]
      split
      · rename_i hanc
        rcases below_good v r0 hm ham hanc with rfl | ⟨m2, k1, -, k3⟩
        · have := (r0.good i m hm ham).1
          rw [hm.1] at h2
          cases Option.some.inj h2
          rw [this] at hw
          cases hw
        · rw [h2] at k1
          cases Option.some.inj k1
          rw [hw] at k3
          cases Option.some.inj k3
          show Fl.add m.value _ = Fl.ofInt (1 - ((vinc m.visits : Nat) : Int))
          rw [hq, outcome_lost hp, A _ _ (by omega) (by omega) (by omega), hvis c m hm.1]
          congr 1
          push_cast
          omega
      · exact hq
    · intro c n' hc ha
      obtain ⟨m, hm, e⟩ := back c n' hc
      have ham : m.action = some y := by
        rw [e] at ha
        split at ha <;> exact ha
      obtain ⟨hq, hq2⟩ := q.bad c m hm ham
      have hb := v.bound c m hm.1
      have hpos := v.pos c m hm.1 hm.2
      rw [e]
      split
      · rename_i hanc
        rcases below_bad v r0 hm ham hanc with rfl | ⟨m2, k1, -, k3⟩ | ⟨d, m2, k1, -, -, k3⟩
        · have := (r0.bad i m hm ham).1
          rw [hm.1] at h2
          cases Option.some.inj h2
          rw [this] at hw
          cases hw
        · rw [h2] at k1
          cases Option.some.inj k1
          rw [hw] at k3
          cases k3
        · rw [h2] at k1
          cases Option.some.inj k1
          rw [hw] at k3
          cases Option.some.inj k3
          refine ⟨?_, ?_⟩
          · show Fl.add m.value _ = Fl.ofInt (((vinc m.visits : Nat) : Int) - 1 - m.children.length)
            rw [hq, outcome_won, A _ _ (by omega) (by omega) (by omega), hvis c m hm.1]
            congr 1
            push_cast
            omega
          · show m.children.length + 1 ≤ vinc m.visits
            rw [hvis c m hm.1]
            omega
      · exact ⟨hq, hq2⟩
  · have hil : i < st.length := (List.getElem?_eq_some_iff.1 h2).1
    have back : ∀ (c : Nat) (n' : Node G Fl), RootChild st' c n' → (c = st.length ∧ i = 0 ∧
        n' = f.record (Fl.ofInt (firstValue G player f.state))) ∨ ∃ m, RootChild st c m ∧
        n' = (if Anc st c i then (if c = i then m.grown st.length else m).record
              (Fl.ofInt (firstValue G player f.state)) else m) := by
      intro c n' hc
      have hcl := (List.getElem?_eq_some_iff.1 hc.1).1
      by_cases hcs : c = st.length
      · left
        subst hcs
        rw [hc.1] at hnew
        have e := Option.some.inj hnew
        refine ⟨rfl, ?_, e⟩
        have h5 := hc.2
        rw [e] at h5
        change f.parent = some 0 at h5
        rw [f1] at h5
        exact Option.some.inj h5
      · right
        obtain ⟨m, hm⟩ : ∃ m, st[c]? = some m := ⟨_, List.getElem?_eq_getElem (by omega)⟩
        have hm' := hrec c m hm
        rw [hc.1] at hm'
        have e := Option.some.inj hm'
        refine ⟨m, ⟨hm, ?_⟩, e⟩
        have h5 := hc.2
        rw [e] at h5
        split at h5
        · split at h5 <;> exact h5
        · exact h5
    have hzero : Fl.add f.value (Fl.ofInt 0) = Fl.ofInt 0 := by
      rw [f3, A 0 0 (by omega) (by omega) (by omega)]
      rfl
    refine ⟨?_, ?_⟩
    · intro c n' hc ha
      rcases back c n' hc with ⟨rfl, -, e⟩ | ⟨m, hm, e⟩
      · have hnone := (r.good _ n' hc ha).1
        subst e
        have hfv : firstValue G player f.state = 0 := by
          unfold firstValue
          rw [show G.winner f.state = none from hnone]
        show Fl.add f.value (Fl.ofInt (firstValue G player f.state)) = Fl.ofInt (1 - ((vinc f.visits : Nat) : Int))
        rw [hfv, hzero, f2]
        rfl
      · have ham : m.action = some x := by
          rw [e] at ha
          split at ha
          · split at ha <;> exact ha
          · exact ha
        have hq := q.good c m hm ham
        have hb := v.bound c m hm.1
        have hpos := v.pos c m hm.1 hm.2
        have hcl := (List.getElem?_eq_some_iff.1 hm.1).1
        by_cases hanc : Anc st c i
        · have hfv : firstValue G player f.state = -1 := by
            rcases below_good v r0 hm ham hanc with rfl | ⟨m2, k1, -, k3⟩
            · rcases below_good v' r hc ha (.step hnew (by exact f1) .refl) with h5 | ⟨m2, k1, -, k3⟩
              · omega
              · rw [hnew] at k1
                cases Option.some.inj k1
                unfold firstValue
                rw [show G.winner f.state = some (-player) from k3]
                exact outcome_lost hp
            · rw [h2] at k1
              cases Option.some.inj k1
              rw [hw] at k3
              cases k3
          rw [if_pos hanc, hfv] at e
          have e1 : n'.visits = m.visits + 1 := by
            rw [e, ← hvis c m hm.1]
            split <;> rfl
          have e2 : n'.value = Fl.add m.value (Fl.ofInt (-1)) := by
            rw [e]
            split <;> rfl
          rw [e1, e2, hq, A _ _ (by omega) (by omega) (by omega)]
          congr 1
          push_cast
          omega
        · rw [if_neg hanc] at e
          rw [e]
          exact hq
    · intro c n' hc ha
      rcases back c n' hc with ⟨rfl, -, e⟩ | ⟨m, hm, e⟩
      · have hnone := (r.bad _ n' hc ha).1
        subst e
        have hfv : firstValue G player f.state = 0 := by
          unfold firstValue
          rw [show G.winner f.state = none from hnone]
        refine ⟨?_, ?_⟩
        · show Fl.add f.value (Fl.ofInt (firstValue G player f.state)) =
            Fl.ofInt (((vinc f.visits : Nat) : Int) - 1 - f.children.length)
          rw [hfv, hzero, f2, f4]
          rfl
        · show f.children.length + 1 ≤ vinc f.visits
          rw [f2, f4]
          decide
      · have ham : m.action = some y := by
          rw [e] at ha
          split at ha
          · split at ha <;> exact ha
          · exact ha
        obtain ⟨hq, hq2⟩ := q.bad c m hm ham
        have hb := v.bound c m hm.1
        have hpos := v.pos c m hm.1 hm.2
        have hcl := (List.getElem?_eq_some_iff.1 hm.1).1
        by_cases hanc : Anc st c i
        · rw [if_pos hanc] at e
          have e1 : n'.visits = m.visits + 1 := by
            rw [e, ← hvis c m hm.1]
            split <;> rfl
          have e2 : n'.value = Fl.add m.value (Fl.ofInt (firstValue G player f.state)) := by
            rw [e]
            split <;> rfl
          rcases below_bad v r0 hm ham hanc with rfl | ⟨m2, k1, k2, k3⟩ | ⟨d, m2, k1, -, -, k3⟩
          · have hfv : firstValue G player f.state = 0 := by
              have := (r.next i _ n' _ hc ha hnew (by exact f1)).1
              unfold firstValue
              rw [show G.winner f.state = none from this]
            have e3 : n'.children.length = m.children.length + 1 := by
              rw [e, if_pos rfl]
              show (m.children ++ [st.length]).length = _
              simp
            rw [e1, e2, e3, hq, hfv, A _ _ (by omega) (by omega) (by omega)]
            refine ⟨?_, by omega⟩
            congr 1
            push_cast
            omega
          · rw [h2] at k1
            cases Option.some.inj k1
            have hic : c ≠ i := by
              have := (v.wf.up i n c h2 k2).1
              omega
            have hfv : firstValue G player f.state = 1 := by
              have hi' : ∃ n1 : Node G Fl, st'[i]? = some n1 ∧ n1.parent = some c := by
                refine ⟨_, hrec i n h2, ?_⟩
                rw [if_pos .refl, if_pos rfl]
                exact k2
              obtain ⟨n1, g1, g2⟩ := hi'
              rcases below_bad v' r hc ha (.step hnew (by exact f1) (.step g1 g2 .refl)) with h5 | ⟨m2, d1, d2, -⟩ | ⟨d, m2, d1, -, -, d3⟩
              · omega
              · rw [hnew] at d1
                cases Option.some.inj d1
                change f.parent = some c at d2
                rw [f1] at d2
                exact absurd (Option.some.inj d2).symm hic
              · rw [hnew] at d1
                cases Option.some.inj d1
                exact firstValue_win d3
            have e3 : n'.children.length = m.children.length := by
              rw [e, if_neg hic]
              rfl
            rw [e1, e2, e3, hq, hfv, A _ _ (by omega) (by omega) (by omega)]
            refine ⟨?_, by omega⟩
            congr 1
            push_cast
            omega
          · rw [h2] at k1
            cases Option.some.inj k1
            rw [hw] at k3
            cases k3
        · rw [if_neg hanc] at e
          rw [e]
          exact ⟨hq, hq2⟩

/-- The root offers the two moves. -/
def Two (G : Game) (x y : G.Mv) (s : G.S) : Prop := x ≠ y ∧ ∃ ms, G.moves s = .ok ms ∧ ms.Perm [x, y]

theorem two_children {x y : G.Mv} {player : Int} {st : Store G Fl} {N : Nat} (v : WinInv player st N) {rn : Node G Fl}
    (hr : st[0]? = some rn) (two : Two G x y rn.state) :
    rn.children.length ≤ 2 ∧
    (∀ (a b : Nat) (an bn : Node G Fl), RootChild st a an → RootChild st b bn → an.action = some x → bn.action = some y →
      a ∈ rn.children ∧ b ∈ rn.children ∧ a ≠ b ∧ ∀ c ∈ rn.children, c = a ∨ c = b) := by
  obtain ⟨hne, ms, hm, hperm⟩ := two
  have hnd : ms.Nodup := hperm.nodup_iff.2 (by simp [hne])
  obtain ⟨ms', h1, h2⟩ := v.wf.part 0 rn hr
  rw [hm] at h1
  cases Except.ok.inj h1
  have h3 := h2.length_eq
  rw [List.length_append, childActions_length v.wf hr, hperm.length_eq] at h3
  simp only [List.length_cons, List.length_nil] at h3
  refine ⟨by omega, ?_⟩
  intro a b an bn ha hb hax hby
  have mem : ∀ (k : Nat) (kn : Node G Fl), RootChild st k kn → k ∈ rn.children := by
    intro k kn hk
    obtain ⟨-, pn, -, g1, g2, -, -⟩ := v.wf.up k kn 0 hk.1 hk.2
    rw [hr] at g1
    cases Option.some.inj g1
    exact g2
  refine ⟨mem a an ha, mem b bn hb, ?_, ?_⟩
  · rintro rfl
    rw [hb.1.symm.trans ha.1 |> Option.some.inj, hax] at hby
    exact hne (Option.some.inj hby)
  · intro c hc
    obtain ⟨cn, g1, g2⟩ := v.wf.down 0 rn c hr hc
    obtain ⟨z, ms', e1, e2, e3, -⟩ := child_legal v.wf hr hc g1
    rw [hm] at e2
    cases Except.ok.inj e2
    have := hperm.mem_iff.1 e3
    simp only [List.mem_cons, List.not_mem_nil, or_false] at this
    rcases this with rfl | rfl
    · exact .inl (same_child v.wf hr hm hnd g1 ha.1 g2 ha.2 e1 hax)
    · exact .inr (same_child v.wf hr hm hnd g1 hb.1 g2 hb.2 e1 hby)

theorem Count.step (A : Arith Fl ℝ B) (hB : B ≤ 16777216) {c ε : ℝ} (hc : 0 ≤ c) (hc2 : c ≤ 2) (hε : ε ≤ 1 / 2 ^ 16)
    (hA : Xp.Close A c ε) {x y : G.Mv} {player : Int} (hp : player ≠ 0) {limit N : Nat} {st st' : Store G Fl} {k : Nat}
    {t t' : Tape} (hl : 0 < limit) (hN : N < B) (v : WinInv player st N)
    (hroot : ∀ rn : Node G Fl, st[0]? = some rn → rn.visits = N)
    (two : ∀ rn : Node G Fl, st[0]? = some rn → Two G x y rn.state)
    (h : iteration player limit 0 st t = .ok ((st', k), t')) (r : Rolls x y player st') (q : Count x y st N) :
    Count x y st' (N + 1) := by
  obtain ⟨v', hs⟩ := v.step hB A.add hl hN h
  have g := iteration_grows v hl h
  have r0 := r.before g
  obtain ⟨rn, hrn, -⟩ := v.root
  have hst := hs rn hrn
  obtain ⟨val1, val2⟩ := q.values hp hB A.add hl hN v h r
  obtain ⟨rn', hrn', -, hst', -⟩ := g 0 rn hrn
  have two' : Two G x y rn'.state := by rw [hst']; exact two rn hrn
  obtain ⟨len', ch'⟩ := two_children v' hrn' two'
  obtain ⟨-, ch⟩ := two_children v hrn (two rn hrn)
  refine ⟨val1, val2, ?_, ?_, ?_⟩
  · intro rn1 hr1 hne
    cases hst with
    | add h0 hch _ =>
      obtain ⟨rn2, e1, e2⟩ := hch
      rw [hr1] at e1
      cases Option.some.inj e1
      rw [e2, q.opening rn hrn h0]
    | visit _ _ _ _ hch _ _ =>
      obtain ⟨rn2, e1, -, e3⟩ := hch
      rw [hr1] at e1
      cases Option.some.inj e1
      exact absurd e3 hne
  · intro a b an bn ha hb hax hby
    obtain ⟨m1, m2, m3, -⟩ := ch' a b an bn ha hb hax hby
    cases hst with
    | add h0 hch hall =>
      obtain ⟨rn2, e1, e2⟩ := hch
      rw [hrn'] at e1
      cases Option.some.inj e1
      rw [hall a an ha.1 ha.2, hall b bn hb.1 hb.2, q.opening rn hrn h0, ← e2]
      have : 2 ≤ rn'.children.length := by
        have := List.Nodup.subperm (l₁ := [a, b]) (l₂ := rn'.children) (by simp [m3]) (by
          intro z hz
          simp only [List.mem_cons, List.not_mem_nil, or_false] at hz
          rcases hz with rfl | rfl <;> assumption)
        exact this.length_le
      omega
    | @visit _ s m hsel hm hmem hch hnew hold =>
      obtain ⟨a0, f1, f2, -, f4⟩ := hnew a an ha.1 ha.2
      obtain ⟨b0, g1, g2, -, g4⟩ := hnew b bn hb.1 hb.2
      have ha0 : a0.action = some x := by
        obtain ⟨z, z1, -, -, z4⟩ := g a a0 f1
        rw [ha.1] at z1
        rw [← z4, ← Option.some.inj z1, hax]
      have hb0 : b0.action = some y := by
        obtain ⟨z, z1, -, -, z4⟩ := g b b0 g1
        rw [hb.1] at z1
        rw [← z4, ← Option.some.inj z1, hby]
      have := q.total a b a0 b0 ⟨f1, f2⟩ ⟨g1, g2⟩ ha0 hb0
      obtain ⟨-, -, -, d4⟩ := ch a b a0 b0 ⟨f1, f2⟩ ⟨g1, g2⟩ ha0 hb0
      rw [f4, g4]
      rcases d4 s hmem with rfl | rfl
      · rw [if_pos rfl, if_neg (Ne.symm m3)]
        omega
      · rw [if_neg m3, if_pos rfl]
        omega
  · intro a b an bn ha hb hax hby
    obtain ⟨-, -, m3, -⟩ := ch' a b an bn ha hb hax hby
    cases hst with
    | add h0 hch hall =>
      rw [hall a an ha.1 ha.2, hall b bn hb.1 hb.2]
      omega
    | @visit _ s m hsel hm hmem hch hnew hold =>
      obtain ⟨a0, f1, f2, -, f4⟩ := hnew a an ha.1 ha.2
      obtain ⟨b0, g1, g2, -, g4⟩ := hnew b bn hb.1 hb.2
      have ha0 : a0.action = some x := by
        obtain ⟨z, z1, -, -, z4⟩ := g a a0 f1
        rw [ha.1] at z1
        rw [← z4, ← Option.some.inj z1, hax]
      have hb0 : b0.action = some y := by
        obtain ⟨z, z1, -, -, z4⟩ := g b b0 g1
        rw [hb.1] at z1
        rw [← z4, ← Option.some.inj z1, hby]
      have htot := q.total a b a0 b0 ⟨f1, f2⟩ ⟨g1, g2⟩ ha0 hb0
      obtain ⟨l1, l2⟩ := q.lead a b a0 b0 ⟨f1, f2⟩ ⟨g1, g2⟩ ha0 hb0
      obtain ⟨-, -, -, d4⟩ := ch a b a0 b0 ⟨f1, f2⟩ ⟨g1, g2⟩ ha0 hb0
      rw [f4, g4]
      rcases d4 s hmem with rfl | rfl
      · rw [if_pos rfl, if_neg (Ne.symm m3)]
        rw [f1] at hm
        have e := Option.some.inj hm
        subst e
        have hmax := selected_max A v hN hrn (hroot rn hrn) hsel b b0 ⟨g1, g2⟩
        have apos := v.pos s a0 f1 f2
        have bpos := v.pos b b0 g1 g2
        have abd := v.bound s a0 f1
        have bbd := v.bound b b0 g1
        obtain ⟨w1, w2⟩ := q.bad b b0 ⟨g1, g2⟩ hb0
        have w3 := (forced_children v.wf g1 (r0.bad b b0 ⟨g1, g2⟩ hb0)).1
        rw [q.good s a0 ⟨f1, f2⟩ ha0, w1] at hmax
        have k1 := abs_le.1 (hA _ a0.visits N apos abd hN (by omega : -(a0.visits : Int) ≤ 1 - a0.visits) (by omega))
        have k2 := abs_le.1 (hA _ b0.visits N bpos bbd hN
          (by omega : -(b0.visits : Int) ≤ b0.visits - 1 - b0.children.length) (by omega))
        have hle : ((1 - (a0.visits : Int) : Int) : ℝ) / a0.visits + Real.sqrt (c * Real.log N / a0.visits) + 2 * ε ≥
            ((b0.visits - 1 - b0.children.length : Int) : ℝ) / b0.visits + Real.sqrt (c * Real.log N / b0.visits) := by
          linarith [k1.2, k2.1]
        have hlt : ¬ (2 ≤ a0.visits ∧ b0.visits ≤ a0.visits) := fun h =>
          absurd (score_level hc hε bpos h.2 h.1 (by omega : 0 < N)
            (by omega : (0 : Int) ≤ b0.visits - 1 - b0.children.length)) (not_lt.2 hle)
        refine ⟨by omega, fun h8 => ?_⟩
        have := l2 h8
        by_contra hcon
        exact absurd (score_close hc hc2 hε h8 (by omega : a0.visits + 1 = b0.visits) (by omega : 0 < N) (by omega)
          (by omega : (b0.visits : Int) - 2 ≤ b0.visits - 1 - b0.children.length)) (not_lt.2 hle)
      · rw [if_neg m3, if_pos rfl]
        refine ⟨by omega, fun h8 => ?_⟩
        by_cases h9 : 8 ≤ b0.visits
        · have := l2 h9
          omega
        · omega

theorem iterate_grows (A : Arith Fl ℝ B) (hB : B ≤ 16777216) {player : Int} {limit : Nat} (hl : 0 < limit) (n : Nat)
    {st st' : Store G Fl} {tr tr' : List Nat} {t t' : Tape} (hN : tr.length + n < B) (v : WinInv player st tr.length)
    (h : iterate player limit 0 n st tr t = .ok ((st', tr'), t')) : Grows st st' := by
  induction n generalizing st tr t with
  | zero =>
    have := M.pure_ok.1 h
    simp only [Prod.mk.injEq] at this
    obtain ⟨⟨rfl, rfl⟩, -⟩ := this
    exact fun j m hj => ⟨m, hj, rfl, rfl, rfl⟩
  | succ n ih =>
    obtain ⟨⟨st1, k⟩, t1, h1, h2⟩ := M.bind_ok.1 h
    have hlen : (tr ++ [k]).length = tr.length + 1 := by simp
    have v1 := (v.step hB A.add hl (by omega) h1).1
    exact (iteration_grows v hl h1).trans (ih (tr := tr ++ [k]) (by rw [hlen]; omega) (by rw [hlen]; exact v1) h2)

theorem iterate_count (A : Arith Fl ℝ B) (hB : B ≤ 16777216) {c ε : ℝ} (hc : 0 ≤ c) (hc2 : c ≤ 2) (hε : ε ≤ 1 / 2 ^ 16)
    (hA : Xp.Close A c ε) {x y : G.Mv} {player : Int} (hp : player ≠ 0) {limit : Nat} (hl : 0 < limit) (n : Nat)
    {st st' : Store G Fl} {tr tr' : List Nat} {t t' : Tape} (hN : tr.length + n < B) (rv : RunInv 0 st tr)
    (v : WinInv player st tr.length) (two : ∀ rn : Node G Fl, st[0]? = some rn → Two G x y rn.state)
    (h : iterate player limit 0 n st tr t = .ok ((st', tr'), t')) (r : Rolls x y player st') (q : Count x y st tr.length) :
    Count x y st' (tr.length + n) := by
  induction n generalizing st tr t with
  | zero =>
    have := M.pure_ok.1 h
    simp only [Prod.mk.injEq] at this
    obtain ⟨⟨rfl, rfl⟩, -⟩ := this
    exact q
  | succ n ih =>
    obtain ⟨⟨st1, k⟩, t1, h1, h2⟩ := M.bind_ok.1 h
    have hlen : (tr ++ [k]).length = tr.length + 1 := by simp
    have v1 := (v.step hB A.add hl (by omega) h1).1
    have hroot : ∀ rn : Node G Fl, st[0]? = some rn → rn.visits = tr.length := fun rn hr =>
      root_visits rv (by omega) hr
    have g2 := iterate_grows A hB hl n (tr := tr ++ [k]) (by rw [hlen]; omega) (by rw [hlen]; exact v1) h2
    have g1 := iteration_grows v hl h1
    have two1 : ∀ rn : Node G Fl, st1[0]? = some rn → Two G x y rn.state := by
      intro rn1 hr1
      obtain ⟨rn, hrn, -⟩ := v.root
      obtain ⟨m, m1, -, m3, -⟩ := g1 0 rn hrn
      rw [hr1] at m1
      cases Option.some.inj m1
      rw [m3]
      exact two rn hrn
    have q1 := q.step A hB hc hc2 hε hA hp hl (by omega) v hroot two h1 (r.before g2)
    have := ih (tr := tr ++ [k]) (by rw [hlen]; omega) (rv.step h1) (by rw [hlen]; exact v1) two1 h2 (by rw [hlen]; exact q1)
    rw [hlen] at this
    rw [show tr.length + (n + 1) = tr.length + 1 + n by omega]
    exact this

theorem start_run {state : G.S} {ms : List G.Mv} (hm : G.moves state = .ok ms) :
    RunInv 0 ([freshNode state 0 none none (Fl.ofInt 0) ms] : Store G Fl) [] := by
  refine ⟨wf_root (Fl := Fl) wf_nil hm (Fl.ofInt 0), by simp, by simp, ?_, ?_, by simp⟩
  · intro i hi
    have : i = 0 := by simp at hi; omega
    subst this
    simp [visitsAt, freshNode, countOf]
  · intro i hi
    have : i = 0 := by simp at hi; omega
    subst this
    exact .refl

/-- With these rolls every search with at least 16 iterations returns the bad move. -/
theorem search_bad (A : Arith Fl ℝ B) (hB : B ≤ 16777216) {c ε : ℝ} (hc : 0 ≤ c) (hc2 : c ≤ 2) (hε : ε ≤ 1 / 2 ^ 16)
    (hA : Xp.Close A c ε) {state : G.S} {x y : G.Mv} {player : Int} (hp : player ≠ 0) {N limit : Nat} (hl : 0 < limit)
    (h16 : 16 ≤ N) (hN : N < B) (hw : G.winner state = none) (two : Two G x y state) {st : Store G Fl} {tr : List Nat} {t t' : Tape}
    (h : buildTree Fl state player N limit t = .ok ((st, tr), t')) (r : Rolls x y player st) :
    selectMostVisits 0 st = .ok y := by
  have hb := h
  unfold buildTree at h
  obtain ⟨⟨st0, r0⟩, t1, h1, h2⟩ := M.bind_ok.1 h
  rw [M.lift_ok, addNode_ok] at h1
  obtain ⟨⟨ms, hm, rfl, rfl⟩, rfl⟩ := h1
  have none0 : ∀ (c : Nat) (n : Node G Fl), ¬ RootChild ([freshNode state 0 none none (Fl.ofInt 0) ms] : Store G Fl) c n := by
    intro c n hc
    have hi := (List.getElem?_eq_some_iff.1 hc.1).1
    have : c = 0 := by simp at hi; omega
    subst this
    have hp := hc.2
    rw [← Option.some.inj hc.1] at hp
    cases hp
  have q := iterate_count A hB hc hc2 hε hA (x := x) (y := y) hp hl N (tr := []) (by simpa using hN) (start_run hm)
    (Race.start hw hm).inv (by
      intro rn hr
      rw [← Option.some.inj hr]
      exact two) h2 r (by
      refine ⟨?_, ?_, ?_, ?_, ?_⟩
      · exact fun c n hc => absurd hc (none0 c n)
      · exact fun c n hc => absurd hc (none0 c n)
      · intro rn hr _
        rw [← Option.some.inj hr]
        rfl
      · exact fun a _ an _ ha => absurd ha (none0 a an)
      · exact fun a _ an _ ha => absurd ha (none0 a an))
  simp only [List.length_nil, Nat.zero_add] at q
  have hv := (buildTree_race A hB hl hN hw hb).1.inv
  obtain ⟨-, -, rn, hr, hrs, -⟩ := buildTree_inv hb
  have two' : Two G x y rn.state := by rw [hrs]; exact two
  obtain ⟨len, ch⟩ := two_children hv hr two'
  have hexp : rn.expandable = [] := by
    by_contra hne
    have := q.opening rn hr hne
    omega
  obtain ⟨hne, ms', hm', hperm⟩ := two'
  obtain ⟨ms2, e1, e2⟩ := hv.wf.part 0 rn hr
  rw [hm'] at e1
  cases Except.ok.inj e1
  rw [hexp, List.nil_append] at e2
  have child : ∀ z ∈ ([x, y] : List G.Mv), ∃ (c : Nat) (n : Node G Fl), RootChild st c n ∧ n.action = some z := by
    intro z hz
    obtain ⟨c, hc, hca⟩ := List.mem_filterMap.1 (e2.mem_iff.2 (hperm.mem_iff.2 hz))
    obtain ⟨n, g1, g2⟩ := hv.wf.down 0 rn c hr hc
    rw [g1] at hca
    exact ⟨c, n, ⟨g1, g2⟩, hca⟩
  obtain ⟨a, an, ha, hax⟩ := child x (by simp)
  obtain ⟨b, bn, hb', hby⟩ := child y (by simp)
  obtain ⟨c1, c2, -, c4⟩ := ch a b an bn ha hb' hax hby
  have htot := q.total a b an bn ha hb' hax hby
  obtain ⟨l1, l2⟩ := q.lead a b an bn ha hb' hax hby
  have hlt : an.visits < bn.visits := l2 (by omega)
  obtain ⟨d, dn, z, d1, d2, d3, d4, d5⟩ := C37_most_visited hv.wf hr (by rintro h; rw [h] at c1; cases c1)
  rw [d4]
  rcases c4 d d1 with rfl | rfl
  · rw [ha.1] at d2
    cases Option.some.inj d2
    have := d5 b bn c2 hb'.1
    omega
  · rw [hb'.1] at d2
    cases Option.some.inj d2
    rw [hby] at d3
    rw [Option.some.inj d3]

end DieE.Props.Fz
