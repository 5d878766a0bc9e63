import Verif.Props.Length
import Verif.Props.SelfPlay
import Verif.Props.Versus

/-!
# C141: what the length of Backgammon games means for training data and matches

C140 applied to the games of `self_play_parallel` and of `play`: a decided game has at least 25 turns and gives at least 17
fragments labelled as won, and with a round limit below 24 no fragment carries any label but 0.
-/

namespace DieE.Props.Lb
open DieE DieE.Mcts DieE.Train DieE.BG DieE.Spec DieE.Props.L DieE.Props.Gl DieE.Props.A
variable {Fl : Floats} {pf : Profile}

theorem skip_step {g g' : State} {t t' : Tape} (h : BG.skipM pf g t = .ok (g', t')) : Step pf g g' := by
  unfold BG.skipM at h
  obtain ⟨d, t1, h1, h2⟩ := M.bind_ok.1 h
  have h2 := (M.lift_ok.1 h2).1
  have hd : DiceInRange d := by
    obtain ⟨x, t2, g1, h1⟩ := M.bind_ok.1 h1
    obtain ⟨y, t3, g2, h1⟩ := M.bind_ok.1 h1
    obtain ⟨k1, t4, -, g1⟩ := M.bind_ok.1 g1
    obtain ⟨k2, t5, -, g2⟩ := M.bind_ok.1 g2
    have e1 := (Prod.mk.inj (M.pure_ok.1 g1)).1
    have e2 := (Prod.mk.inj (M.pure_ok.1 g2)).1
    have e3 := (Prod.mk.inj (M.pure_ok.1 h1)).1
    rw [e3]
    refine ⟨?_, ?_⟩ <;> simp only <;> omega
  exact .skip hd h2

/-- A turn of self-play is a half-turn. -/
theorem turn_step {pw : Rat → Rat} {t : Turn (BG.game pf)} (h : t.Fair pw) : Step pf t.before t.after := by
  cases t with
  | skip s s' =>
    obtain ⟨-, t, t', h⟩ := h
    exact skip_step h
  | move s ps a s' =>
    obtain ⟨⟨ms, h1, h2⟩, h3, -⟩ := h
    exact plays_step pf h1 h2 h3

/-- The turns of a game are the half-turns of C140, and of the fragments of a game there are enough of each side. -/
theorem log_halves {pw : Rat → Rat} {d : Int × Int} (hd : DiceInRange d) {l : List (Turn (BG.game pf))} {s : State}
    (h : Log (BG.game pf) pw (rollWith new d) l s) :
    Halves pf (l.reverse.map fun t => mover (Turn.before t : State)) s ∧
    ∀ (u : Side) (w : Int), w = u.sgn → 34 ≤ quarters (view s.board) u + 2 * (((frags (result w) l).map Frag.outcome).count 1 : Int) := by
  induction h with
  | nil =>
    refine ⟨.start hd, fun u w _ => ?_⟩
    have := (halves_bounds pf (.start hd)).2.1 u
    simpa [frags] using this
  | @snoc l m t hl hb hf ih =>
    obtain ⟨h1, h2⟩ := ih
    have hok : StateOK m := reach_ok (halves_bounds pf h1).1
    subst hb
    have hs := turn_step hf
    refine ⟨?_, fun u w hw => ?_⟩
    · rw [List.reverse_append, List.reverse_singleton, List.singleton_append, List.map_cons]
      exact .step h1 hs
    · have h3 := h2 u w hw
      unfold frags at h3 ⊢
      rw [List.flatMap_append, List.map_append, List.count_append]
      cases t with
      | skip s s' =>
        obtain ⟨-, t, t', h⟩ := hf
        have h : BG.skipM pf s t = .ok (s', t') := h
        unfold BG.skipM at h
        obtain ⟨d, t1, -, h2⟩ := M.bind_ok.1 h
        have hbd := skipTurn_board hok (M.lift_ok.1 h2).1
        have e : (Turn.after (Turn.skip s s' : Turn (BG.game pf)) : State).board = (s : State).board := hbd
        have e' : (Turn.before (Turn.skip s s' : Turn (BG.game pf)) : State) = s := rfl
        rw [e'] at h3
        rw [e]
        simp [fragOf] at h3 ⊢
        omega
      | move s ps a s' =>
        obtain ⟨k1, k2, -⟩ := step_half pf hok hs
        have e' : (Turn.before (Turn.move s ps a s' : Turn (BG.game pf)) : State) = s := rfl
        rw [e'] at h3 k1 k2 hok
        have hu : u = mover (s : State) ∨ u = (mover (s : State)).opp := by
          cases u <;> cases mover (s : State) <;> simp [Side.opp]
        rcases hu with hu | hu
        · obtain ⟨x, hx, -⟩ := (C23_content (s : State)).2 (roll_ne hok)
          have hx : (BG.game pf).tensor s = .ok x := hx
          have hp : (BG.game pf).player s = w := by
            rw [hw, hu]
            exact mover_sgn hok
          have hone : ((List.flatMap (fragOf (result w)) [(Turn.move s ps a s' : Turn (BG.game pf))]).map Frag.outcome).count 1 = 1 := by
            rw [List.flatMap_singleton]
            have e : fragOf (result w) (Turn.move s ps a s' : Turn (BG.game pf)) =
                match (BG.game pf).tensor s with
                | .ok x => [{ outcome := result w ((BG.game pf).player s), ps := ps, state := x }]
                | .error _ => [] := rfl
            rw [e, hx, hp]
            simp [result]
          rw [hone]
          subst hu
          push_cast
          omega
        · subst hu
          push_cast
          omega

/-- C141: a Backgammon game of self-play that is decided had at least 25 turns, and at least 17 of its fragments are returned
as won. -/
theorem C141_game {net : Net Fl} (ha : net.alphaOk = true) (cfg : SelfPlayConfig) (hpw : PwOK cfg.pw) (hit : cfg.iterations ≠ 0)
    {o : Orders (BG.game pf)} (ho : o.Valid) {n : Nat} {t t' : Tape} {sp : SelfPlay (BG.game pf)}
    (h : selfPlayRun net cfg o n (cfg.limit + 1) t = .ok (sp, t')) {i : Nat} (hi : i < n) {w : Int} (hw : decided (sp.turns i) = some w) :
    25 ≤ (sp.turns i).length ∧ 17 ≤ ((emitted cfg.limit (sp.turns i)).map Frag.outcome).count 1 := by
  obtain ⟨⟨s0, s, t1, t2, h1, h2⟩, -, -⟩ := C64_games (bg_safeNet pf) (bg_coded pf) (bg_starts pf) ha cfg hpw hit ho (Nat.le_refl _) h i hi
  obtain ⟨d, t3, h3, hd⟩ := bg_start pf t1
  obtain ⟨rfl, -⟩ := Prod.mk.inj (Except.ok.inj (h1.symm.trans h3))
  obtain ⟨k1, k2⟩ := log_halves hd h2
  have hwin : checkWinner s = some w := by
    generalize sp.turns i = l at *
    cases h2 with
    | nil => cases hw
    | @snoc l m t hl hb hf =>
      rw [decided_snoc] at hw
      cases t with
      | skip s s' => cases hw
      | move s ps a s' => exact hw
  obtain ⟨u, rfl, hoff⟩ := winner_off hwin
  have hq := off_quarters (reach_ok (halves_bounds pf k1).1) hoff
  constructor
  · have := (C140_length pf k1 hwin).2.2.1
    rw [List.length_map, List.length_reverse] at this
    split at this <;> omega
  · have := k2 u _ rfl
    rw [hq] at this
    unfold emitted
    rw [hw, List.map_append, List.count_append]
    show 17 ≤ _ + ((frags (result u.sgn) (sp.turns i)).map Frag.outcome).count 1
    omega

theorem count_flatMap_le {α : Type} [BEq α] {β : Type} (f : β → List α) (p : β → Bool) (x : α) (c : Nat) (l : List β)
    (h : ∀ b ∈ l, p b = true → c ≤ (f b).count x) : c * l.countP p ≤ (l.flatMap f).count x := by
  induction l with
  | nil => simp
  | cons b l ih =>
    rw [List.flatMap_cons, List.count_append, List.countP_cons]
    have h1 := ih fun b hb => h b (List.mem_cons_of_mem _ hb)
    split
    · next hp =>
      have h2 := h b List.mem_cons_self hp
      rw [Nat.mul_add]
      omega
    · rw [Nat.add_zero]
      omega

/-- C141: a self-play run returns at least 17 fragments labelled as won for every game that was decided. -/
theorem C141_run {net : Net Fl} (ha : net.alphaOk = true) (cfg : SelfPlayConfig) (hpw : PwOK cfg.pw) (hit : cfg.iterations ≠ 0)
    {o : Orders (BG.game pf)} (ho : o.Valid) {n : Nat} {t t' : Tape} {sp : SelfPlay (BG.game pf)}
    (h : selfPlayRun net cfg o n (cfg.limit + 1) t = .ok (sp, t')) :
    17 * (List.range n).countP (fun i => (decided (sp.turns i)).isSome) ≤ (sp.all.map Frag.outcome).count 1 := by
  obtain ⟨D, h1, h2, -, -⟩ := run_facts (bg_safeNet pf) (bg_coded pf) (bg_starts pf) ha hpw hit ho h
  rw [h2, List.map_flatMap, ← h1.countP_eq]
  refine count_flatMap_le _ _ _ _ _ fun i hi hp => ?_
  obtain ⟨w, hw⟩ := Option.isSome_iff_exists.1 hp
  exact (C141_game ha cfg hpw hit ho h (List.mem_range.1 (h1.mem_iff.1 hi)) hw).2

/-- C141: with a round limit below 24 every fragment is labelled 0, so there is nothing to learn about winning. -/
theorem C141_limit {net : Net Fl} (ha : net.alphaOk = true) (cfg : SelfPlayConfig) (hpw : PwOK cfg.pw) (hit : cfg.iterations ≠ 0)
    {o : Orders (BG.game pf)} (ho : o.Valid) {n : Nat} {t t' : Tape} {sp : SelfPlay (BG.game pf)}
    (h : selfPlayRun net cfg o n (cfg.limit + 1) t = .ok (sp, t')) (hl : cfg.limit < 24) : ∀ x ∈ sp.all, x.outcome = 0 := by
  obtain ⟨D, h1, h2, -, -⟩ := run_facts (bg_safeNet pf) (bg_coded pf) (bg_starts pf) ha hpw hit ho h
  intro x hx
  rw [h2] at hx
  obtain ⟨i, hi, hx⟩ := List.mem_flatMap.1 hx
  have hi := List.mem_range.1 (h1.mem_iff.1 hi)
  have hlen : (sp.turns i).length ≤ cfg.limit + 1 := by
    rcases (C64_games (bg_safeNet pf) (bg_coded pf) (bg_starts pf) ha cfg hpw hit ho (Nat.le_refl _) h i hi).2.2 with h | h <;> omega
  cases hw : decided (sp.turns i) with
  | some w =>
    have := (C141_game ha cfg hpw hit ho h hi hw).1
    omega
  | none =>
    unfold emitted at hx
    rw [hw] at hx
    simp only [List.append_nil] at hx
    split at hx
    · obtain ⟨m, -, rfl⟩ := mem_frags hx
      rfl
    · cases hx

/-- Such runs exist: three games with the sample network and round limit 23, and every random source. -/
example (t : Tape) : ∃ sp t', selfPlayRun (G := BG.game .debug) demoNet (demoConfig 23) (demoOrders _) 3 24 t = .ok (sp, t') := by
  obtain ⟨sp, t', -, -, h, -⟩ := selfPlayRun_spec (bg_safeNet .debug) (bg_coded .debug) (bg_starts .debug) (net := demoNet) rfl
    (demoConfig 23) (demoConfig_ok 23).1.toPwOK (demoConfig_ok 23).2 (demoOrders_valid _) 3 24 (Nat.le_refl _) t
  exact ⟨sp, t', h⟩

/-- The numbers are attained: a game decided after 25 half-turns. -/
example : ∃ l g, Halves .debug l g ∧ Played .debug g ∧ checkWinner g = some (-1) ∧ l.length = 25 := by
  obtain ⟨l, g, h1, h2, h3, -, -, h4, -⟩ := C140_attained .debug .neg
  exact ⟨l, g, h1, h2, h3, h4⟩

/-! ### The bounds are attained -/

/-- Every pair of dice can come from the random source. -/
theorem roll_any {d : Int × Int} (hd : DiceInRange d) : ∃ t t' : Tape, rollDice t = .ok (d, t') := by
  obtain ⟨⟨h1, h2⟩, h3, h4⟩ := hd
  refine ⟨fun n => if n = 0 then (d.1 - 1).toNat else (d.2 - 1).toNat, fun _ => (d.2 - 1).toNat, ?_⟩
  have e : rollDice (fun n => if n = 0 then (d.1 - 1).toNat else (d.2 - 1).toNat) =
      .ok (((((d.1 - 1).toNat % 6 : Nat) : Int) + 1, (((d.2 - 1).toNat % 6 : Nat) : Int) + 1), fun _ => (d.2 - 1).toNat) := rfl
  rw [e]
  congr 2
  refine Prod.ext ?_ ?_
  · show (((d.1 - 1).toNat % 6 : Nat) : Int) + 1 = d.1
    omega
  · show (((d.2 - 1).toNat % 6 : Nat) : Int) + 1 = d.2
    omega

/-- A legal move with dice can be a turn of self-play, with a row that has only this move. -/
theorem turn_any {pw : Rat → Rat} (h1 : 0 < pw 1) {g : State} (hg : StateOK g) {q : Actions} (hq : q ≠ [])
    {dice : Int × Int} (hd : DiceInRange dice) (h : GenPlay (mover g) (allMoves g.roll) g.board q) :
    ∃ ps a, Turn.Fair pw (Turn.move g ps a (plyResult g q dice) : Turn (BG.game pf)) := by
  obtain ⟨m, hm, e⟩ := pureMoves_complete hq h
  have hms := validMoves_eq pf hg
  have ha := applyMove_eq pf hg hms hm
  have hplay : Plays (BG.game pf) g m (plyResult g q dice) := by
    obtain ⟨t, t', ht⟩ := roll_any hd
    have hlift : ∀ d t', BG.applyMove pf g m d = .ok (plyResult g q dice) →
        (M.lift (BG.applyMove pf g m d) : M State) t' = .ok (plyResult g q dice, t') := fun d t' h => M.lift_ok.2 ⟨h, rfl⟩
    by_cases hc : g.roll.1 = g.roll.2 ∧ g.second = false
    · refine ⟨t, t, ?_⟩
      show BG.applyM pf g m t = .ok (plyResult g q dice, t)
      unfold BG.applyM
      rw [if_pos hc]
      refine M.bind_ok.2 ⟨(0, 0), t, rfl, hlift _ _ ?_⟩
      rw [ha, e]
      unfold plyResult
      rw [if_neg hq, if_pos hc, if_pos hc]
    · refine ⟨t, t', ?_⟩
      show BG.applyM pf g m t = .ok (plyResult g q dice, t')
      unfold BG.applyM
      rw [if_neg hc]
      refine M.bind_ok.2 ⟨dice, t', ht, hlift _ _ ?_⟩
      rw [ha, e]
      unfold plyResult
      rw [if_neg hq, if_neg hc]
  obtain ⟨c, hc, hcN, -⟩ := (bg_coded pf).code g _ m hg hms hm
  refine ⟨fun k => some (pw (if k = c then 1 else 0)), m, ⟨_, hms, hm⟩, hplay, ⟨c, pw 1, hcN, hc, by simp, h1⟩,
    fun k => some (if k = c then 1 else 0), ⟨fun k => if k = c then 1 else 0, fun k _ => ⟨rfl, by show (0 : Rat) ≤ if k = c then 1 else 0; split <;> norm_num⟩, ?_⟩,
    fun k => rfl, fun k x hx hx0 => ⟨_, hms, m, hm, ?_⟩⟩
  · have e : ((List.range (BG.game pf).actionSpace).map fun k => if k = c then (1 : Rat) else 0).sum =
        ∑ k ∈ Finset.range (BG.game pf).actionSpace, if k = c then (1 : Rat) else 0 := rfl
    rw [e, Finset.sum_ite_eq', if_pos (Finset.mem_range.2 hcN)]
  · have hx := Option.some.inj hx
    by_cases hk : k = c
    · rw [hk]
      exact hc
    · rw [if_neg hk] at hx
      exact absurd hx.symm hx0

/-- A written game without passes can be a game of self-play. -/
theorem script_log {pw : Rat → Rat} (h1 : 0 < pw 1) {s0 : State} (s : List (Actions × (Int × Int)))
    (hne : ∀ x ∈ s, x.1 ≠ []) {g g' : State} (hg : StateOK g) {l : List (Turn (BG.game pf))} (hl : Log (BG.game pf) pw s0 l g)
    (ho : ∀ k, k ≤ l.length → decided (l.take k) = none) (hs : playScript g s = some g') :
    ∃ l', Log (BG.game pf) pw s0 l' g' ∧ Open l' ∧ (s ≠ [] → decided l' = checkWinner g') ∧
      (∀ t ∈ l', t ∈ l ∨ ∃ s ps a s', t = Turn.move s ps a s' ∧ StateOK s) ∧
      (l'.map fun t => mover (Turn.before t : State)).reverse = movers g s (l.map fun t => mover (Turn.before t : State)).reverse := by
  induction s generalizing g l with
  | nil =>
    cases hs
    exact ⟨l, hl, fun k hk => ho k (Nat.le_of_lt hk), fun h => absurd rfl h, fun t ht => .inl ht, rfl⟩
  | cons x s ih =>
    obtain ⟨q, dice⟩ := x
    unfold playScript at hs
    split at hs
    · rename_i hc
      have hgp := genPlayB_ok _ _ _ _ hc.2.2.2
      have hd : DiceInRange dice := ⟨hc.2.1, hc.2.2.1⟩
      obtain ⟨ps, a, hf⟩ := turn_any (pf := pf) h1 hg (hne _ List.mem_cons_self) hd hgp
      have hl' := Log.snoc _ hl rfl hf
      have hok : StateOK (plyResult g q dice) := step_ok hg (ply_step (pf := pf) hg hd hgp)
      have hdec : decided (l ++ [Turn.move g ps a (plyResult g q dice)]) = checkWinner (plyResult g q dice) := by
        rw [decided_snoc]
        rfl
      have hmap : ((l ++ [Turn.move g ps a (plyResult g q dice)]).map fun t => mover (Turn.before t : State)).reverse =
          mover g :: (l.map fun t => mover (Turn.before t : State)).reverse := by
        rw [List.map_append, List.reverse_append]
        rfl
      have hopen : ∀ k, k < (l ++ [Turn.move g ps a (plyResult g q dice)]).length →
          decided ((l ++ [Turn.move g ps a (plyResult g q dice)]).take k) = none := by
        intro k hk
        rw [List.length_append, List.length_singleton] at hk
        rw [List.take_append_of_le_length (by omega)]
        exact ho k (by omega)
      have hnew : ∀ t ∈ l ++ [Turn.move g ps a (plyResult g q dice)], t ∈ l ∨ ∃ s ps a s', t = Turn.move s ps a s' ∧ StateOK s := by
        intro t ht
        rcases List.mem_append.1 ht with ht | ht
        · exact .inl ht
        · exact .inr ⟨g, ps, a, _, List.mem_singleton.1 ht, hg⟩
      cases s with
      | nil =>
        cases hs
        exact ⟨_, hl', hopen, fun _ => hdec, hnew, hmap⟩
      | cons y s =>
        obtain ⟨l', k1, k2, k3, k4, k5⟩ := ih (fun x hx => hne x (List.mem_cons_of_mem _ hx)) hok hl' (by
          intro k hk
          rcases Nat.lt_or_eq_of_le hk with hk | hk
          · exact hopen k hk
          · rw [hk, List.take_length, hdec]
            unfold playScript at hs
            split at hs
            · rename_i hc
              exact hc.1
            · cases hs) hs
        refine ⟨l', k1, k2, fun _ => k3 (by simp), fun t ht => ?_, ?_⟩
        · rcases k4 t ht with h | h
          · exact hnew t h
          · exact .inr h
        · rw [k5, hmap]
          rfl
    · cases hs

/-- The fragments of a game without passes are labelled by the movers. -/
theorem frags_movers {u : Side} (l : List (Turn (BG.game pf))) (h : ∀ t ∈ l, ∃ s ps a s', t = Turn.move s ps a s' ∧ StateOK s) :
    ((frags (result u.sgn) l).map Frag.outcome).count 1 = (l.map fun t => mover (Turn.before t : State)).count u := by
  induction l with
  | nil => rfl
  | cons t l ih =>
    obtain ⟨s, ps, a, s', rfl, hok⟩ := h t List.mem_cons_self
    obtain ⟨x, hx, -⟩ := (C23_content (s : State)).2 (roll_ne hok)
    have hx : (BG.game pf).tensor s = .ok x := hx
    have e : fragOf (result u.sgn) (Turn.move s ps a s' : Turn (BG.game pf)) =
        match (BG.game pf).tensor s with
        | .ok x => [{ outcome := result u.sgn ((BG.game pf).player s), ps := ps, state := x }]
        | .error _ => [] := rfl
    have hp : (BG.game pf).player s = (mover (s : State)).sgn := mover_sgn hok
    have ih := ih fun t ht => h t (List.mem_cons_of_mem _ ht)
    unfold frags at ih ⊢
    rw [List.flatMap_cons, List.map_append, List.count_append, ih, e, hx, hp]
    show _ = List.count u (mover (s : State) :: List.map (fun t => mover (Turn.before t : State)) l)
    rw [List.count_cons, Nat.add_comm]
    congr 1
    cases u <;> cases mover (s : State) <;> rfl

/-- C141: the numbers are attained, whatever the temperature is: there is a game of self-play with 25 turns which its last
turn decides, and exactly 17 of its fragments are labelled as won. -/
theorem C141_attained {pw : Rat → Rat} (h1 : 0 < pw 1) : ∃ s0 s t1 t2 l, start (BG.game pf) t1 = .ok (s0, t2) ∧
    Log (BG.game pf) pw s0 l s ∧ Open l ∧ decided l = some (-1) ∧ l.length = 25 ∧
    ((emitted 100 l).map Frag.outcome).count 1 = 17 := by
  have hd : DiceInRange (6, 6) := ⟨⟨by decide, by decide⟩, by decide, by decide⟩
  have h : ((playScript (rollWith new (6, 6)) shortest).bind checkWinner = some (Side.sgn .neg)) := by decide +kernel
  obtain ⟨g, h2, h3⟩ := Option.bind_eq_some_iff.1 h
  obtain ⟨t, t', ht⟩ := roll_any hd
  have hok : StateOK (rollWith new (6, 6)) := reach_ok (halves_bounds pf (.start hd)).1
  obtain ⟨l, k1, k2, k3, k4, k5⟩ := script_log (pf := pf) h1 shortest (by decide +kernel) hok .nil
    (fun k _ => by rw [List.take_nil]; rfl) h2
  have hdec : decided l = some (Side.sgn .neg) := (k3 (by decide)).trans h3
  have hlen : l.length = 25 := by
    have := congrArg List.length k5
    rw [List.length_reverse, List.length_map] at this
    exact this.trans (show (movers (rollWith new (6, 6)) shortest []).length = 25 by decide +kernel)
  refine ⟨rollWith new (6, 6), g, t, t', l, M.bind_ok.2 ⟨_, _, ht, rfl⟩, k1, k2, hdec, hlen, ?_⟩
  unfold emitted
  rw [hdec, if_neg (by omega), List.nil_append]
  show ((frags (result (Side.sgn .neg)) l).map Frag.outcome).count 1 = 17
  rw [frags_movers l fun t ht => (k4 t ht).resolve_left (by simp), ← List.count_reverse, k5]
  show (movers (rollWith new (6, 6)) shortest []).count .neg = 17
  decide +kernel

/-! ## Matches -/

/-- A step of a match is a half-turn. -/
theorem match_step {st : Versus.Step (BG.game pf)} (h : st.Fair) : Step pf st.before st.after := by
  by_cases he : st.action = (BG.game pf).emptyMove
  · obtain ⟨t, t', h⟩ := h.1 he
    exact skip_step h
  · obtain ⟨⟨ms, h1, h2⟩, h3⟩ := h.2 he
    exact plays_step pf h1 h2 h3

theorem linked_far {s0 s : State} {l : List (Versus.Step (BG.game pf))} (h : Versus.Linked (BG.game pf) s0 l s)
    (hf : ∀ st ∈ l, st.Fair) (h0 : StateOK s0) : StateOK s ∧ ∀ (n : Int) u, Far (n + l.length) s0 u → Far n s u := by
  induction h with
  | nil => exact ⟨h0, fun n u h => by simpa using h⟩
  | @snoc l m st hl hb ih =>
    obtain ⟨h1, h2⟩ := ih fun st hst => hf st (List.mem_append_left _ hst)
    have hs := match_step (hf st (List.mem_append_right _ (List.mem_singleton_self st)))
    subst hb
    refine ⟨step_ok h1 hs, fun n u h => Far.step (h2 (n + 1) u ?_) h1 hs⟩
    rw [List.length_append, List.length_singleton] at h
    rw [show n + 1 + (l.length : Int) = n + ((l.length + 1 : Nat) : Int) by push_cast; omega]
    exact h

theorem match_start {n i : Nat} {s0 : State} {u u' : Tape} (h : Versus.initState (BG.game pf) n i u = .ok (s0, u')) :
    StateOK s0 ∧ ∀ v, Far 24 s0 v := by
  obtain ⟨d, rfl, hd⟩ := V.bg_first h
  refine ⟨⟨initial_valid, ?_, hd.1, hd.2⟩, fun v => .inr ?_⟩
  · show (if i < n / 2 then -1 else 1 : Int) = -1 ∨ (if i < n / 2 then -1 else 1 : Int) = 1
    split
    · exact .inl rfl
    · exact .inr rfl
  · have hq : quarters (view initialBoard) v = 34 := by
      cases v
      · decide +kernel
      · decide +kernel
    have hr := (ahead_range v { new with player := (if i < n / 2 then -1 else 1 : Int), roll := d, id := i }).1
    show 4 * (24 : Int) + 4 < 3 * quarters (view initialBoard) v + 2 * ahead v _
    omega

/-- C141: a Backgammon game of a match that has a winner had at least 25 steps. -/
theorem C141_match {rnd : Rat → Rat} {p1 p2 : Versus.Player Fl} {cfg : Versus.Config} {n limit : Nat} {o : Versus.Orders} (ho : o.Valid)
    {f : Nat} {t t' : Tape} {r : Versus.PlayResult (BG.game pf)} {m : Versus.Match (BG.game pf)}
    (h : V.Behind pf rnd p1 p2 cfg n limit o f t t' r m) : ∀ g ∈ r.games, Versus.outcome (m.steps g.key) ≠ 0 → 25 ≤ (m.steps g.key).length := by
  obtain ⟨h1, h2⟩ := h
  obtain ⟨m', ⟨h3, -⟩, -, h5, h6, -⟩ := V.accounted (V.bg_ids pf) ho (M.bind_ok.2 ⟨m, t', h1, M.lift_ok.2 ⟨h2, rfl⟩⟩)
  obtain ⟨rfl, -⟩ := Prod.mk.inj (Except.ok.inj (h1.symm.trans h3))
  intro g hg hw
  obtain ⟨⟨s, hl⟩, hf, -⟩ := h5.finished g hg
  obtain ⟨u, u', hi⟩ := h6 g hg
  obtain ⟨k1, k2⟩ := match_start hi
  obtain ⟨q1, q2⟩ := linked_far hl (fun st hst => (hf st hst).1) k1
  by_contra hlt
  have hopen : checkWinner s = none := Far.open (n := 24 - (m.steps g.key).length) (by omega) q1 fun u => q2 _ u (by
    rw [show (24 : Int) - ((m.steps g.key).length : Int) + ((m.steps g.key).length : Int) = 24 by omega]
    exact k2 u)
  apply hw
  generalize m.steps g.key = l at *
  unfold Versus.outcome
  cases hl with
  | nil => rfl
  | @snoc l m st hl hb =>
    rw [List.getLast?_append]
    have hopen : (BG.game pf).winner st.after = none := hopen
    simp [hopen]

end DieE.Props.Lb
