import Verif.Props.First
import Verif.Props.SelfPlay
import Verif.Props.TicTacToe

/-!
# C143, C146: the labels of TicTacToe self-play

Every game gives five to nine fragments whose labels alternate and end with 1, or nine fragments labelled 0.  Hence in the
data of a run the label 1 is at least as frequent as -1, and more frequent by one for each game that the beginner won (C143).  The k-th fragment
of a game shows k marks (C146).
-/

namespace DieE.Props.Lt
open DieE DieE.Mcts DieE.Train DieE.Props.L DieE.Props.A
variable {Fl : Floats} {pf : Profile}

/-- The labels of the fragments of a game of `n` moves with winner `w`: -1 moves first. -/
def marks (w : Int) (n : Nat) : List Int := (List.range n).map fun k => result w (if k % 2 = 0 then -1 else 1)

/-- The same with the numbers of marks on the board. -/
def stages (w : Int) (n : Nat) : List (Nat × Int) := (List.range n).map fun k => (k, result w (if k % 2 = 0 then -1 else 1))

theorem stages_snd (w : Int) (n : Nat) : (stages w n).map Prod.snd = marks w n := by
  unfold stages marks
  rw [List.map_map]
  rfl

theorem stages_succ (w : Int) (n : Nat) : stages w (n + 1) = stages w n ++ [(n, result w (if n % 2 = 0 then -1 else 1))] := by
  unfold stages
  rw [List.range_succ, List.map_append]
  rfl

/-- The number of marks in the network input of a position: the cells that the second plane does not show as empty. -/
def filled (x : Tensor Int) : Nat := (List.range 9).countP fun a => decide (x.at' [0, 1, a / 3, a % 3] = 0)

theorem filled_eq {p : Int} {l : List Nat} {g : TTT.State} (h : T.Hist pf p l g) {x : Tensor Int} (hx : TTT.asTensor g = .ok x) :
    filled x = l.length := by
  obtain ⟨hp, -, hnd, hlt, hk, h0⟩ := T.C26_consistent pf h
  obtain ⟨y, hy, -, hc⟩ := T.tensor_content g
  obtain rfl := Except.ok.inj (hx.symm.trans hy)
  unfold filled
  rw [List.countP_eq_length_filter]
  refine List.Perm.length_eq ((List.perm_ext_iff_of_nodup (List.Nodup.filter _ List.nodup_range) hnd).2 fun a => ?_)
  rw [List.mem_filter, List.mem_range, decide_eq_true_eq]
  have key : a < 9 → (x.at' [0, 1, a / 3, a % 3] = 0 ↔ g.cell a ≠ 0) := by
    intro ha
    rw [hc 1 (a / 3) (a % 3) (by decide) (by omega) (by omega)]
    have e : T.rc g (a / 3) (a % 3) = g.cell a := by
      unfold T.rc
      congr 1
      omega
    rw [e]
    split <;> simp_all
  constructor
  · rintro ⟨ha, hx⟩
    by_contra hn
    exact (key ha).1 hx (h0 a hn)
  · intro ha
    refine ⟨hlt a ha, (key (hlt a ha)).2 ?_⟩
    obtain ⟨k, hkl, rfl⟩ := List.mem_iff_getElem.1 ha
    rw [hk k hkl]
    split <;> omega

/-- A game that does not go on after a result, with its labels. -/
theorem log_marks {pw : Rat → Rat} (hpw : PwWarm 9 pw) {l : List (Turn (TTT.game pf))} {s : TTT.State} (h : Log (TTT.game pf) pw TTT.new l s)
    (ho : Open l) : (∃ ms, T.HistStop pf (-1) ms s ∧ ms.length = l.length) ∧ (l ≠ [] → decided l = TTT.checkWinner s) ∧
      ∀ w, (frags (result w) l).map (fun f => (filled f.state, f.outcome)) = stages w l.length := by
  induction h with
  | nil => exact ⟨⟨[], .start, rfl⟩, fun h => absurd rfl h, fun w => rfl⟩
  | @snoc l m t hlog hb hf ih =>
    have hol : Open l := by
      intro k hk
      have := ho k (by rw [List.length_append]; omega)
      rwa [List.take_append_of_le_length (by omega)] at this
    have hdl : decided l = none := by
      have := ho l.length (by rw [List.length_append]; simp)
      rwa [List.take_left'] at this
      rfl
    obtain ⟨⟨ms, h1, h2⟩, h3, h4⟩ := ih hol
    have hw : TTT.checkWinner m = none := by
      by_cases hl : l = []
      · subst hl
        generalize hl0 : ([] : List (Turn (TTT.game pf))) = l0 at hlog
        cases hlog with
        | nil => decide +kernel
        | snoc => simp at hl0
      · rw [← h3 hl]
        exact hdl
    cases t with
    | skip a b =>
      obtain rfl : a = m := hb
      obtain ⟨hm, -⟩ := hf
      have hm : (Except.ok (TTT.getValidMoves a) : Res (List Nat)) = .ok [] := hm.resolve_right (not_vanishes hpw)
      injection hm with hm
      exact absurd hm (T.C28_no_winner_move a hw)
    | move a ps mv b =>
      obtain rfl : a = m := hb
      obtain ⟨⟨ms', hm, hmem⟩, ⟨t, t', hp⟩, -⟩ := hf
      have hm : (Except.ok (TTT.getValidMoves a) : Res (List Nat)) = .ok ms' := hm
      injection hm with hm
      subst hm
      have hp : M.lift (TTT.applyMove pf a mv) t = .ok (b, t') := hp
      let mv' : Nat := mv
      refine ⟨⟨ms ++ [mv'], .step h1 hw hmem (M.lift_ok.1 hp).1, ?_⟩, fun _ => ?_, fun w => ?_⟩
      · rw [List.length_append, List.length_append, h2]
        rfl
      · rw [decided_snoc]
        rfl
      · obtain ⟨x, hx, -⟩ := T.tensor_content a
        have hx : (TTT.game pf).tensor a = .ok x := hx
        have hpl : (TTT.game pf).player a = if l.length % 2 = 0 then -1 else 1 := by
          have := (T.C26_consistent pf h1.hist).2.1
          rw [h2] at this
          exact this
        have e : fragOf (result w) (Turn.move a ps mv b : Turn (TTT.game pf)) =
            match (TTT.game pf).tensor a with
            | .ok x => [{ outcome := result w ((TTT.game pf).player a), ps := ps, state := x }]
            | .error _ => [] := rfl
        have h5 := h4 w
        unfold frags at h5 ⊢
        rw [List.flatMap_append, List.map_append, h5, List.length_append, List.length_singleton, stages_succ, List.flatMap_singleton, e, hx, hpl, ← h2,
          ← filled_eq h1.hist (x := x) (by exact hx)]
        rfl

/-- Who can have won: the player who moved last. -/
theorem winner_last {p : Int} {l : List Nat} {g : TTT.State} (h : T.HistStop pf p l g) {w : Int} (hw : TTT.checkWinner g = some w) (h0 : w ≠ 0) :
    w = if l.length % 2 = 1 then p else -p := by
  have hcells := T.C26_cells pf h.hist
  have hone := T.C26_one_winner pf h
  obtain ⟨k1, k2, k3⟩ := T.C27_winner g hcells hone
  have hpm := (T.C26_consistent pf h.hist).1
  have hpm' : w = -1 ∨ w = 1 := by
    unfold TTT.checkWinner at hw
    cases hf : TTT.combos.findSome? (TTT.comboWinner g) with
    | none =>
      rw [hf] at hw
      simp only at hw
      split at hw
      · exact absurd (Option.some.inj hw).symm h0
      · cases hw
    | some a =>
      rw [hf] at hw
      cases Option.some.inj hw
      obtain ⟨t, -, ht⟩ := List.exists_of_findSome?_eq_some hf
      have : w = g.cell t.1 := by
        unfold TTT.comboWinner at ht
        simp only at ht
        split at ht
        · exact (Option.some.inj ht).symm
        · cases ht
      rcases hcells t.1 with h | h | h <;> omega
  have hline := (k1 w hpm').1 hw
  cases h with
  | start => cases hw.symm.trans (show TTT.checkWinner TTT.new = none by decide +kernel)
  | startSkip hs =>
    have e := Except.ok.inj (hs.symm.trans (T.skip_ok pf (g := TTT.new) (.inl rfl)))
    subst e
    cases hw.symm.trans (show TTT.checkWinner { TTT.new with player := -TTT.new.player } = none by decide +kernel)
  | @step _ l g a _ h1 h2 h3 h4 =>
    have hc1 := T.C26_cells pf h1.hist
    obtain ⟨-, -, q3⟩ := T.C27_winner g hc1 (T.C26_one_winner pf h1)
    obtain ⟨-, q4, q5⟩ := q3.1 h2
    obtain ⟨-, hpl, -⟩ := T.C26_consistent pf h1.hist
    have hgp : g.player = -1 ∨ g.player = 1 := by rw [hpl]; split <;> omega
    have ha := ((T.mem_moves g a).1 h3).1
    have e := Except.ok.inj (h4.symm.trans (T.apply_ok pf hgp ha))
    have hwp : g.player = w := by
      by_contra hne
      rw [e] at hline
      have := T.line_mono ha _ hne hline
      rcases hpm' with rfl | rfl
      · exact q4 this
      · exact q5 this
    rw [← hwp, hpl, List.length_append, List.length_singleton]
    split <;> split <;> omega

theorem marks_won (n : Nat) : marks (if n % 2 = 1 then -1 else 1) n = (List.range n).map fun k => if (n - k) % 2 = 1 then 1 else -1 := by
  unfold marks
  refine List.map_congr_left fun k hk => ?_
  have hk := List.mem_range.1 hk
  unfold result
  split <;> split <;> split <;> first | rfl | omega

/-- C143, C146: the labels of a game by the number of marks on the board. -/
theorem game_stages {net : Net Fl} (ha : net.alphaOk = true) {cfg : SelfPlayConfig} (hpw : PwWarm 9 cfg.pw) (hit : cfg.iterations ≠ 0)
    {o : Orders (TTT.game pf)} (ho : o.Valid) {n : Nat} {t t' : Tape} {sp : SelfPlay (TTT.game pf)} (hl : 9 ≤ cfg.limit)
    (h : selfPlayRun net cfg o n (cfg.limit + 1) t = .ok (sp, t')) {i : Nat} (hi : i < n) :
    ∃ m w, 5 ≤ m ∧ m ≤ 9 ∧ (w = 0 ∧ m = 9 ∨ w = if m % 2 = 1 then -1 else 1) ∧ decided (sp.turns i) = some w ∧
      (expected (sp.turns i)).map (fun f => (filled f.state, f.outcome)) = stages w m := by
  obtain ⟨⟨s0, s, t1, t2, hs, hlog⟩, hopen, -⟩ :=
    C64_games (ttt_safeNet pf) (ttt_coded pf) (ttt_starts pf) ha cfg hpw.toPwOK hit ho (Nat.le_refl _) h i hi
  have hs : (Except.ok (TTT.new, t1) : Res (TTT.State × Tape)) = .ok (s0, t2) := hs
  injection hs with hs
  injection hs with hs _
  subst hs
  obtain ⟨D, -, -, hdec⟩ := C46_tictactoe pf ha hpw hit ho hl h
  obtain ⟨⟨ms, h1, h2⟩, h3, h4⟩ := log_marks hpw hlog hopen
  have hne : sp.turns i ≠ [] := fun he => hdec i hi (by rw [he]; rfl)
  obtain ⟨w, hw⟩ := Option.ne_none_iff_exists'.1 (hdec i hi)
  have hwin := (h3 hne).symm.trans hw
  have hexp : (expected (sp.turns i)).map (fun f => (filled f.state, f.outcome)) = stages w (sp.turns i).length := by
    unfold expected
    rw [hw]
    exact h4 w
  obtain ⟨k1, k2, -⟩ := T.C28_ends pf h1.hist
  rw [h2] at k1 k2
  have h5 : 5 ≤ (sp.turns i).length := by
    by_contra hlt
    rw [Fi.early h1.hist (by omega)] at hwin
    cases hwin
  refine ⟨_, w, h5, k1, ?_, hw, hexp⟩
  by_cases h0 : w = 0
  · subst h0
    exact .inl ⟨rfl, k2.2 ((T.C27_winner s (T.C26_cells pf h1.hist) (T.C26_one_winner pf h1)).2.1.1 hwin).1⟩
  · have hlast := winner_last h1 hwin h0
    rw [h2] at hlast
    exact .inr hlast

/-- C143: the labels of a game. -/
theorem C143_game {net : Net Fl} (ha : net.alphaOk = true) {cfg : SelfPlayConfig} (hpw : PwWarm 9 cfg.pw) (hit : cfg.iterations ≠ 0)
    {o : Orders (TTT.game pf)} (ho : o.Valid) {n : Nat} {t t' : Tape} {sp : SelfPlay (TTT.game pf)} (hl : 9 ≤ cfg.limit)
    (h : selfPlayRun net cfg o n (cfg.limit + 1) t = .ok (sp, t')) {i : Nat} (hi : i < n) :
    (decided (sp.turns i) = some 0 ∧ (expected (sp.turns i)).map Frag.outcome = List.replicate 9 0) ∨
    ∃ m w, 5 ≤ m ∧ m ≤ 9 ∧ (w = if m % 2 = 1 then -1 else 1) ∧ decided (sp.turns i) = some w ∧
      (expected (sp.turns i)).map Frag.outcome = (List.range m).map fun k => if (m - k) % 2 = 1 then 1 else -1 := by
  obtain ⟨m, w, h1, h2, h3, h4, h5⟩ := game_stages ha hpw hit ho hl h hi
  have h6 : (expected (sp.turns i)).map Frag.outcome = marks w m := by
    rw [← stages_snd, ← h5, List.map_map]
    rfl
  rcases h3 with ⟨rfl, rfl⟩ | h3
  · exact .inl ⟨h4, h6.trans (by decide)⟩
  · exact .inr ⟨m, w, h1, h2, h3, h4, by rw [h6, h3, marks_won]⟩

theorem counts : ∀ m, 5 ≤ m → m ≤ 9 →
    (((List.range m).map fun k => if (m - k) % 2 = 1 then (1 : Int) else -1).count 1 =
      ((List.range m).map fun k => if (m - k) % 2 = 1 then (1 : Int) else -1).count (-1) + m % 2) ∧
    (((List.range m).map fun k => if (m - k) % 2 = 1 then (1 : Int) else -1).count 0 = 0) := by
  intro m h1 h2
  have : m = 5 ∨ m = 6 ∨ m = 7 ∨ m = 8 ∨ m = 9 := by omega
  rcases this with rfl | rfl | rfl | rfl | rfl <;> decide

/-- C143: in a whole run the label 1 is as frequent as -1, and once more for every game that the beginner won; there are nine
labels 0 for every drawn game. -/
theorem C143_run {net : Net Fl} (ha : net.alphaOk = true) {cfg : SelfPlayConfig} (hpw : PwWarm 9 cfg.pw) (hit : cfg.iterations ≠ 0)
    {o : Orders (TTT.game pf)} (ho : o.Valid) {n : Nat} {t t' : Tape} {sp : SelfPlay (TTT.game pf)} (hl : 9 ≤ cfg.limit)
    (h : selfPlayRun net cfg o n (cfg.limit + 1) t = .ok (sp, t')) :
    (sp.all.map Frag.outcome).count 1 =
      (sp.all.map Frag.outcome).count (-1) + (List.range n).countP (fun i => decide (decided (sp.turns i) = some (-1))) ∧
    (sp.all.map Frag.outcome).count 0 = 9 * (List.range n).countP (fun i => decide (decided (sp.turns i) = some 0)) ∧
    5 * n ≤ sp.all.length ∧ sp.all.length ≤ 9 * n := by
  obtain ⟨D, h1, h2, -⟩ := C46_tictactoe pf ha hpw hit ho hl h
  have hlen : D.length = n := by rw [h1.length_eq, List.length_range]
  rw [h2, List.map_flatMap, ← h1.countP_eq, ← h1.countP_eq, ← hlen]
  have hD : ∀ i ∈ D, i < n := fun i hi => List.mem_range.1 (h1.mem_iff.1 hi)
  clear h1 h2 hlen
  induction D with
  | nil => simp
  | cons i D ih =>
    obtain ⟨j1, j2, j3, j4⟩ := ih fun i hi => hD i (List.mem_cons_of_mem _ hi)
    rw [List.flatMap_cons, List.flatMap_cons, List.count_append, List.count_append, List.count_append, List.length_append,
      List.countP_cons, List.countP_cons, List.length_cons, j1, j2]
    have hlen : (expected (sp.turns i)).length = ((expected (sp.turns i)).map Frag.outcome).length := by rw [List.length_map]
    rcases C143_game ha hpw hit ho hl h (hD i List.mem_cons_self) with ⟨k1, k2⟩ | ⟨m, w, k1, k2, k3, k4, k5⟩
    · rw [hlen, k1, k2, List.length_replicate]
      have e1 : (List.replicate 9 (0 : Int)).count 1 = 0 := by decide
      have e2 : (List.replicate 9 (0 : Int)).count (-1) = 0 := by decide
      have e3 : (List.replicate 9 (0 : Int)).count 0 = 9 := by decide
      have e4 : (if decide (some (0 : Int) = some (-1)) = true then 1 else 0) = 0 := by decide
      have e5 : (if decide (some (0 : Int) = some 0) = true then 1 else 0) = 1 := by decide
      rw [e1, e2, e3, e4, e5]
      omega
    · obtain ⟨c1, c2⟩ := counts m k1 k2
      have hm2 : (if decide (some w = some (-1 : Int)) = true then 1 else 0) = m % 2 := by
        rw [k3]
        rcases Nat.mod_two_eq_zero_or_one m with h | h <;> simp [h]
      have hm0 : (if decide (some w = some (0 : Int)) = true then 1 else 0) = 0 := by
        rw [k3]
        split <;> simp
      rw [hlen, k4, k5, c1, c2, hm2, hm0, List.length_map, List.length_range]
      omega

/-! ## C146: positions by the number of marks -/

theorem range_filter (m k : Nat) : (List.range m).filter (fun j => decide (j = k)) = if k < m then [k] else [] := by
  induction m with
  | zero => rfl
  | succ m ih =>
    rw [List.range_succ, List.filter_append, ih, List.filter_cons, List.filter_nil]
    by_cases h1 : m = k
    · subst h1
      simp
    · rw [decide_eq_false h1]
      by_cases h2 : k < m
      · rw [if_pos h2, if_pos (show k < m + 1 by omega)]
        rfl
      · rw [if_neg h2, if_neg (show ¬ k < m + 1 by omega)]
        rfl

theorem stage_labels (w : Int) (m k : Nat) : ((stages w m).filter fun e => decide (e.1 = k)).map Prod.snd =
    if k < m then [result w (if k % 2 = 0 then -1 else 1)] else [] := by
  unfold stages
  rw [List.filter_map, List.map_map]
  have := range_filter m k
  unfold Function.comp
  simp only
  rw [this]
  split <;> rfl

/-- The labels of the fragments of a run whose positions have `k` marks. -/
def labelsAt (k : Nat) (l : List Frag) : List Int := (l.filter fun f => decide (filled f.state = k)).map Frag.outcome

theorem labelsAt_append (k : Nat) (l l' : List Frag) : labelsAt k (l ++ l') = labelsAt k l ++ labelsAt k l' := by
  unfold labelsAt
  rw [List.filter_append, List.map_append]

theorem labelsAt_eq {k : Nat} {l : List Frag} {w : Int} {m : Nat} (h : l.map (fun f => (filled f.state, f.outcome)) = stages w m) :
    labelsAt k l = if k < m then [result w (if k % 2 = 0 then -1 else 1)] else [] := by
  rw [← stage_labels, ← h, List.filter_map, List.map_map]
  rfl

/-- C146: for each number of marks up to four a run has one fragment for each game, and the labels of these fragments add up to
the balance of the games, seen from the player to move; positions with more marks get rarer with each mark, and there is none
with nine. -/
theorem C146_stages {net : Net Fl} (ha : net.alphaOk = true) {cfg : SelfPlayConfig} (hpw : PwWarm 9 cfg.pw) (hit : cfg.iterations ≠ 0)
    {o : Orders (TTT.game pf)} (ho : o.Valid) {n : Nat} {t t' : Tape} {sp : SelfPlay (TTT.game pf)} (hl : 9 ≤ cfg.limit)
    (h : selfPlayRun net cfg o n (cfg.limit + 1) t = .ok (sp, t')) :
    (∀ k, k ≤ 4 → (labelsAt k sp.all).length = n ∧ (labelsAt k sp.all).sum = (if k % 2 = 0 then 1 else -1) *
      (((List.range n).countP (fun i => decide (decided (sp.turns i) = some (-1))) : Int) -
        (List.range n).countP (fun i => decide (decided (sp.turns i) = some 1)))) ∧
    (∀ k, (labelsAt (k + 1) sp.all).length ≤ (labelsAt k sp.all).length) ∧ ∀ k, 9 ≤ k → labelsAt k sp.all = [] := by
  obtain ⟨D, h1, h2, -⟩ := C46_tictactoe pf ha hpw hit ho hl h
  have hlen : D.length = n := by rw [h1.length_eq, List.length_range]
  rw [h2, ← h1.countP_eq, ← h1.countP_eq, ← hlen]
  have hD : ∀ i ∈ D, i < n := fun i hi => List.mem_range.1 (h1.mem_iff.1 hi)
  clear h1 h2 hlen
  induction D with
  | nil => exact ⟨fun k _ => ⟨rfl, by simp [labelsAt]⟩, fun k => Nat.le_refl _, fun k _ => rfl⟩
  | cons i D ih =>
    obtain ⟨j1, j2, j3⟩ := ih fun i hi => hD i (List.mem_cons_of_mem _ hi)
    obtain ⟨m, w, k1, k2, k3, k4, k5⟩ := game_stages ha hpw hit ho hl h (hD i List.mem_cons_self)
    refine ⟨fun k hk => ?_, fun k => ?_, fun k hk => ?_⟩
    · obtain ⟨g1, g2⟩ := j1 k hk
      rw [List.flatMap_cons, labelsAt_append, labelsAt_eq k5, if_pos (by omega), List.length_append, List.sum_append, g1, g2,
        List.countP_cons, List.countP_cons, List.length_cons, k4]
      refine ⟨by simp [Nat.add_comm], ?_⟩
      have hw : w = 0 ∨ w = -1 ∨ w = 1 := by
        rcases k3 with ⟨h, -⟩ | h
        · exact .inl h
        · rw [h]
          split <;> simp
      rcases hw with rfl | rfl | rfl
      · by_cases hk2 : k % 2 = 0 <;> simp [hk2, result]
      · by_cases hk2 : k % 2 = 0 <;> simp [hk2, result] <;> ring
      · by_cases hk2 : k % 2 = 0 <;> simp [hk2, result] <;> ring
    · have := j2 k
      rw [List.flatMap_cons, labelsAt_append, labelsAt_append, labelsAt_eq k5, labelsAt_eq k5, List.length_append, List.length_append]
      by_cases h3 : k + 1 < m
      · rw [if_pos h3, if_pos (show k < m by omega), List.length_singleton, List.length_singleton]
        omega
      · rw [if_neg h3, List.length_nil]
        omega
    · rw [List.flatMap_cons, labelsAt_append, labelsAt_eq k5, j3 k hk, if_neg (by omega)]
      rfl

/-- Such runs exist: three games with the sample network, and every random source. -/
example (t : Tape) : ∃ sp t', selfPlayRun (G := TTT.game .debug) demoNet (demoConfig 400) (demoOrders _) 3 401 t = .ok (sp, t') := by
  obtain ⟨sp, t', -, -, h, -⟩ := selfPlayRun_spec (ttt_safeNet .debug) (ttt_coded .debug) (ttt_starts .debug) (net := demoNet) rfl
    (demoConfig 400) (demoConfig_ok 400).1.toPwOK (demoConfig_ok 400).2 (demoOrders_valid _) 3 401 (Nat.le_refl _) t
  exact ⟨sp, t', h⟩

/-- The labels of a game won by the beginner in five moves, and by the other player in six. -/
example : marks (-1) 5 = [1, -1, 1, -1, 1] ∧ marks 1 6 = [-1, 1, -1, 1, -1, 1] ∧ marks 0 9 = [0, 0, 0, 0, 0, 0, 0, 0, 0] := by decide

/-- The fragments of a run by the number of marks: the empty board, and one mark of the beginner in the centre. -/
example : (TTT.asTensor TTT.new).toOption.map filled = some 0 ∧
    ((TTT.applyMove .debug TTT.new 4).bind TTT.asTensor).toOption.map filled = some 1 := by decide +kernel

end DieE.Props.Lt
