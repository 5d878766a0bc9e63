import Verif.Backgammon.Script
import Verif.Props.FrozenDice
import Verif.Props.Alpha
import Verif.Props.Single32

/-!
# C106: the search does not average over the dice

`apply_move` rolls for the next player when a node is created (backgammon_logic.rs:176-186, node.rs:118-137 and 139-174),
so every sequence of moves is examined with one sequence of rolls.
-/

namespace DieE.Props.Fz
open DieE DieE.Mcts DieE.Props.S DieE.Props.Wn DieE.Fp
variable {Fl : Floats} {B : Nat}

/-! ## One roll for each sequence of moves -/

/-- C106, the trees of the plain search: a sequence of moves leads to one node, so it was examined with one sequence of
rolls only, whatever the number of iterations. -/
theorem C106_one_roll (pf : Profile) {state : BG.State} (hs : Spec.StateOK state) {player : Int} {N limit : Nat}
    {st : Store (BG.game pf) Fl} {tr : List Nat} {t t' : Tape}
    (h : buildTree (G := BG.game pf) Fl state player N limit t = .ok ((st, tr), t')) {i j : Nat} {n m : Node (BG.game pf) Fl}
    {l : List BG.Actions} (hi : Line st 0 i l) (hj : Line st 0 j l) (hn : st[i]? = some n) (hm : st[j]? = some m) :
    i = j ∧ n.state = m.state := by
  obtain ⟨w, ⟨rn, r1, r2, -⟩, conn, -⟩ := C36_well_formed h
  have hall : ∀ (i : Nat) (n : Node (BG.game pf) Fl), st[i]? = some n → Spec.StateOK n.state := by
    refine wf_all w (R := fun s : BG.State => Spec.StateOK s) (bg_safe pf).closed ?_
    intro k kn hk hp
    have : k = 0 := by
      have hc := conn k (List.getElem?_eq_some_iff.1 hk).1
      rcases (anc_cases hk).1 hc with e | ⟨p, e, -⟩
      · exact e.symm
      · rw [hp] at e
        cases e
    subst this
    rw [r1] at hk
    cases Option.some.inj hk
    rw [r2]
    exact hs
  have e := Line.unique w hall (fun s ms hs hm => A.bg_moves_nodup pf hs hm) hi hj
  subst e
  rw [hn] at hm
  exact ⟨rfl, by rw [Option.some.inj hm]⟩

/-- The same for the trees of the batched network search. -/
theorem C106_one_roll_batched (pf : Profile) {net : Net Fl} {order : List Nat} {states : List BG.State}
    (hs : ∀ s ∈ states, Spec.StateOK s) (ho : order.Perm (List.range states.length)) {iterations : Nat}
    {st0 st : Store (BG.game pf) Fl} {t t' : Tape}
    (h : alphaMctsParallel (G := BG.game pf) net order states iterations st0 t = .ok (st, t')) {r i j : Nat}
    {n m : Node (BG.game pf) Fl} {l : List BG.Actions} (hi : Line st r i l) (hj : Line st r j l) (hn : st[i]? = some n)
    (hm : st[j]? = some m) : i = j ∧ n.state = m.state := by
  have f := alphaMctsParallel_forest ho h
  have hall : ∀ (i : Nat) (n : Node (BG.game pf) Fl), st[i]? = some n → Spec.StateOK n.state := by
    refine wf_all f.wf (R := fun s : BG.State => Spec.StateOK s) (bg_safe pf).closed ?_
    intro k kn hk hp
    have hlt := (f.roots k kn hk).1 hp
    obtain ⟨kn', e1, e2⟩ := f.state k states[k] (List.getElem?_eq_getElem hlt)
    rw [hk] at e1
    cases Option.some.inj e1
    rw [e2]
    exact hs _ (List.getElem_mem hlt)
  have e := Line.unique f.wf hall (fun s ms hs hm => A.bg_moves_nodup pf hs hm) hi hj
  subst e
  rw [hn] at hm
  exact ⟨rfl, by rw [Option.some.inj hm]⟩

/-! ## The good and the bad move -/

variable (pf : Profile)

theorem good_turn : ∀ b ∈ goodBoards, ∀ d ∈ dice,
    CanWin (BG.game pf) (-1) ({ board := b, roll := d, player := -1, second := false, id := 0 } : BG.State) := by
  intro b hb
  refine pairs_cover (fun d hd => ?_) (fun x y h => ?_)
  · have hd' : d ∈ dice := (List.mem_filter.1 hd).1
    have hr := dice_range hd'
    refine canWinB_sound pf 2 _ ⟨goodBoards_ok hb, .inl rfl, hr.1, hr.2⟩ ?_
    simp only [goodBoards, List.mem_cons, List.not_mem_nil, or_false] at hb
    rcases hb with rfl | rfl | rfl
    · exact wins_a d hd
    · exact wins_b d hd
    · exact wins_c d hd
  · exact CanWin.swap (s := ({ board := b, roll := (x, y), player := -1, second := false, id := 0 } : BG.State)) h

/-- After the good move player -1 wins in the next turn, unless player 1 has won before. -/
theorem good_wins {s' : BG.State} (h : Plays (BG.game pf) race good s') : WinsNext (BG.game pf) (-1) s' := by
  obtain ⟨s0, e, hs⟩ := bg_plays h
  rw [race_good pf] at e
  cases Except.ok.inj e
  rcases hs with ⟨c, -⟩ | ⟨-, d, hd, rfl⟩
  · exact absurd c (by decide)
  · have key : ∀ d ∈ dice, WinsNext (BG.game pf) (-1) (afterGood d) := by
      refine pairs_cover (fun d hd => ?_) (fun x y h => ?_)
      · exact winsNextB_sound pf (good_turn pf) 3 _ (afterGood_ok (List.mem_filter.1 hd).1) (next_pairs d hd)
      · exact WinsNext.swap (s := afterGood (x, y)) h
    exact key d hd

/-- Player 1 rolled 1-2 after the bad move. -/
def afterReply (d : Int × Int) : BG.State :=
  place #v[0, -2, 0, 0, 0, 0, 0, 0, 0, 0, 0, 0, 0, 0, 0, 0, 0, 0, 0, 0, 0, 1, 0, 0] (13, 14) d (-1)

theorem afterReply_ok {d : Int × Int} (hd : d ∈ dice) : Spec.StateOK (afterReply d) := by
  refine place_ok ⟨by decide, by decide, by decide, by decide, ?_⟩ (.inl rfl) hd
  intro s
  cases s <;> decide

def reply : BG.Actions := [(18, 19), (19, 21)]

theorem reply_moves' : BG.getValidMoves .debug (afterBad (1, 2)) = .ok [reply] := by decide +kernel

theorem reply_moves : BG.getValidMoves pf (afterBad (1, 2)) = .ok [reply] := by
  rw [profile_moves pf (afterBad_ok (by decide)), reply_moves']

theorem reply_apply (d : Int × Int) : BG.applyMove pf (afterBad (1, 2)) reply d = .ok (afterReply d) := by
  rw [profile_apply pf (afterBad_ok (by decide)) reply_moves' (by decide)]
  rfl

theorem slow_moves' : BG.getValidMoves .debug (afterReply (1, 2)) = .ok [[(1, 0), (1, -1)]] := by decide +kernel

/-- After the bad move player 1 can roll 1-2 and player -1 then 1-2, which does not win. -/
theorem bad_waits : ∃ s', Plays (BG.game pf) race bad s' ∧ ¬ WinsNext (BG.game pf) (-1) s' := by
  have hd : ((1, 2) : Int × Int) ∈ dice := by decide
  refine ⟨afterBad (1, 2), plays_of hd (race_bad pf _), fun h => ?_⟩
  have hslow : ¬ CanWin (BG.game pf) (-1) (afterReply (1, 2)) := by
    intro h
    obtain ⟨-, ms, a, s', h1, h2, h3, h4⟩ := h.inv
    have h1 : BG.getValidMoves pf (afterReply (1, 2)) = .ok ms := h1
    rw [profile_moves pf (afterReply_ok hd), slow_moves'] at h1
    cases Except.ok.inj h1
    have ha := List.mem_singleton.1 h2
    obtain ⟨s0, e, hs⟩ := bg_plays h3
    rw [profile_apply pf (afterReply_ok hd) slow_moves' h2, ha] at e
    have e0 : BG.applyMove .debug (afterReply (1, 2)) [(1, 0), (1, -1)] (1, 1) = .ok
      (place #v[-1, 0, 0, 0, 0, 0, 0, 0, 0, 0, 0, 0, 0, 0, 0, 0, 0, 0, 0, 0, 0, 1, 0, 0] (14, 14) (1, 1) 1) := rfl
    rw [e0] at e
    cases Except.ok.inj e
    rcases hs with ⟨c, -⟩ | ⟨-, d, hd, rfl⟩
    · exact absurd c (by decide)
    · rcases h4 with h4 | ⟨-, h4⟩
      · cases h4
      · have := h4.inv.1
        exact absurd (show (1 : Int) = -1 from this) (by decide)
  rcases h.inv with h | ⟨-, h⟩ | ⟨-, -, h⟩
  · cases h
  · exact absurd (show (1 : Int) = -1 from h.inv.1) (by decide)
  · have h := h [reply] reply (afterReply (1, 2)) (reply_moves pf) (List.mem_singleton.2 rfl) (plays_of hd (reply_apply pf _))
    rcases h.inv with h | ⟨-, h⟩ | ⟨-, h, -⟩
    · cases h
    · exact hslow h
    · exact h rfl

/-! ## The search returns the bad move -/

theorem race_two : Two (BG.game pf) good bad race := by
  refine ⟨?_, [good, bad], race_moves pf, List.Perm.refl _⟩
  have : (good : BG.Actions) ≠ bad := by decide
  exact this

theorem exact_close : Xp.Close (realArith 2 16777216) 2 0 := by
  intro z n p _ _ _ _ _
  rw [abs_le]
  exact ⟨le_of_eq (by show -0 = (_ : ℝ) - _; simp [realArith, realFloats]), le_of_eq (by simp [realArith, realFloats])⟩

/-- C106: if the rolls in the tree came out such that player 1 wins at once after the good move but not after the bad one,
and player -1 then wins at once, the search returns the bad move, for every number of iterations from 16 on. -/
theorem C106_frozen {N limit : Nat} (h16 : 16 ≤ N) (hN : N < 2 ^ 24) (hl : 0 < limit)
    {st : Store (BG.game pf) (realFloats 2)} {tr : List Nat} {t t' : Tape}
    (h : buildTree (G := BG.game pf) (realFloats 2) race (-1) N limit t = .ok ((st, tr), t'))
    (r : Rolls (G := BG.game pf) good bad (-1) st) :
    mctSearch (G := BG.game pf) (realFloats 2) race (-1) N limit t = .ok (bad, t') := by
  have hw : (BG.game pf).winner race = none := rfl
  have := search_bad (realArith 2 16777216) (Nat.le_refl _) (by norm_num) (by norm_num) (by norm_num) exact_close (player := -1) (by decide) hl h16
    hN hw (race_two pf) h r
  unfold mctSearch
  rw [hw]
  exact M.bind_ok.2 ⟨_, _, h, M.lift_ok.2 ⟨this, rfl⟩⟩

/-- The same in single precision. -/
theorem C106_frozen_single {ln : Num → Num} (hln : Fn.LogOK ln) {N limit : Nat} (h16 : 16 ≤ N) (hN : N < 65536) (hl : 0 < limit)
    {st : Store (BG.game pf) (single (.fin 2) ln)} {tr : List Nat} {t t' : Tape}
    (h : buildTree (G := BG.game pf) (single (.fin 2) ln) race (-1) N limit t = .ok ((st, tr), t'))
    (r : Rolls (G := BG.game pf) good bad (-1) st) :
    mctSearch (G := BG.game pf) (single (.fin 2) ln) race (-1) N limit t = .ok (bad, t') := by
  have hw : (BG.game pf).winner race = none := rfl
  have hu : Fn.Usual 2 := ⟨.inr (by norm_num), by norm_num⟩
  have hA := Fn.single_close hu hln
  rw [show (((2 : Rat) : ℝ)) = 2 by norm_num] at hA
  have := search_bad (Fn.singleArith hu hln) (by norm_num) (by norm_num) (by norm_num) (by norm_num) hA (player := -1) (by decide) hl h16
    hN hw (race_two pf) h r
  unfold mctSearch
  rw [hw]
  exact M.bind_ok.2 ⟨_, _, h, M.lift_ok.2 ⟨this, rfl⟩⟩

/-! ## Such rolls exist -/

theorem good_ends : Ends (BG.game pf) 1 (afterGood (6, 6)) :=
  endsB_sound pf (afterGood_ok (by decide)) (by decide +kernel)

theorem reply_ends : Ends (BG.game pf) (-1) (afterReply (6, 6)) :=
  endsB_sound pf (afterReply_ok (by decide)) (by decide +kernel)

/-- The positions in the tree. -/
def Seen (s : BG.State) : Prop :=
  s = race ∨ s = afterGood (6, 6) ∨ s = afterBad (1, 2) ∨ s = afterReply (6, 6) ∨
    (BG.checkWinner s ≠ none ∧ Spec.StateOK s)

theorem Seen.ok {s : BG.State} (h : Seen s) : Spec.StateOK s := by
  rcases h with rfl | rfl | rfl | rfl | ⟨-, h⟩
  · exact race_ok
  · exact afterGood_ok (by decide)
  · exact afterBad_ok (by decide)
  · exact afterReply_ok (by decide)
  · exact h

theorem bg_free : FreePlay (BG.game pf) (fun s : BG.State => Spec.StateOK s) := by
  intro s hs
  have hd : ((1, 1) : Int × Int) ∈ dice := by decide
  obtain ⟨ms, h1, h2, -, h3, -⟩ := C02_state_ok hs
  refine ⟨ms, h1 pf, ?_, ?_⟩
  · intro a ha
    obtain ⟨s', h⟩ := h2 a ha (1, 1)
    exact ⟨s', BG.applyMove_ok hs (h1 pf) ha (dice_range hd) (h pf), free_apply hd (h pf)⟩
  · intro hnil
    obtain ⟨s', h⟩ := h3 (1, 1)
    refine ⟨s', BG.skipTurn_ok hs (dice_range hd) (h pf), ?_⟩
    have hr := dice_range hd
    exact M.Free.bind (a := ((1, 1) : Int × Int))
      ((M.Free.die hr.1.1 hr.1.2).bind ((M.Free.die hr.2.1 hr.2.2).bind (.pure _))) (M.Free.lift (h pf))

theorem ends_free {w : Int} {s : BG.State} (hs : Spec.StateOK s) (h : Ends (BG.game pf) w s) :
    ∃ ms, BG.getValidMoves pf s = .ok ms ∧ ms ≠ [] ∧ ∀ a ∈ ms, ∃ s', Seen s' ∧ M.Free (BG.applyM pf s a) s' := by
  have hd : ((1, 1) : Int × Int) ∈ dice := by decide
  obtain ⟨-, a, hm, hall⟩ := h
  refine ⟨[a], hm, by simp, ?_⟩
  intro b hb
  cases List.mem_singleton.1 hb
  obtain ⟨ms, h1, h2, -⟩ := C02_state_ok hs
  have h1 := h1 pf
  have hm : BG.getValidMoves pf s = .ok [a] := hm
  rw [hm] at h1
  cases Except.ok.inj h1
  obtain ⟨s', h⟩ := h2 a (List.mem_singleton.2 rfl) (1, 1)
  have hw : BG.checkWinner s' = some w := hall s' (plays_of hd (h pf))
  exact ⟨s', .inr (.inr (.inr (.inr ⟨fun hn => Option.some_ne_none w (hw.symm.trans hn),
    BG.applyMove_ok hs hm (List.mem_singleton.2 rfl) (dice_range hd) (h pf)⟩))),
    free_apply hd (h pf)⟩

theorem seen_free : FreeTree (BG.game pf) (fun s : BG.State => Seen s) := by
  intro s hs hw
  rcases hs with rfl | rfl | rfl | rfl | ⟨h, -⟩
  · refine ⟨[good, bad], race_moves pf, by simp, ?_⟩
    intro a ha
    rcases List.mem_cons.1 ha with rfl | ha
    · exact ⟨afterGood (6, 6), .inr (.inl rfl), free_apply (by decide) (race_good pf _)⟩
    · cases List.mem_singleton.1 ha
      exact ⟨afterBad (1, 2), .inr (.inr (.inl rfl)), free_apply (by decide) (race_bad pf _)⟩
  · exact ends_free pf (afterGood_ok (by decide)) (good_ends pf)
  · refine ⟨[reply], reply_moves pf, by simp, ?_⟩
    intro a ha
    cases List.mem_singleton.1 ha
    exact ⟨afterReply (6, 6), .inr (.inr (.inr (.inl rfl))), free_apply (by decide) (reply_apply pf _)⟩
  · exact ends_free pf (afterReply_ok (by decide)) (reply_ends pf)
  · exact absurd hw h

theorem seen_good {d : Int × Int} (h : Seen (afterGood d)) : afterGood d = afterGood (6, 6) := by
  rcases h with h | h | h | h | ⟨h, -⟩
  · exact absurd (h ▸ rfl : race.board.pts = (afterGood d).board.pts) (show ¬ race.board.pts = (afterGood (1, 1)).board.pts by decide)
  · exact h
  · exact absurd (h ▸ rfl : (afterBad (1, 2)).board.pts = (afterGood d).board.pts) (show ¬ (afterBad (1, 2)).board.pts = (afterGood (1, 1)).board.pts by decide)
  · exact absurd (h ▸ rfl : (afterReply (6, 6)).board.pts = (afterGood d).board.pts) (show ¬ (afterReply (6, 6)).board.pts = (afterGood (1, 1)).board.pts by decide)
  · exact absurd rfl h

theorem seen_bad {d : Int × Int} (h : Seen (afterBad d)) : afterBad d = afterBad (1, 2) := by
  rcases h with h | h | h | h | ⟨h, -⟩
  · exact absurd (h ▸ rfl : race.board.pts = (afterBad d).board.pts) (show ¬ race.board.pts = (afterBad (1, 1)).board.pts by decide)
  · exact absurd (h ▸ rfl : (afterGood (6, 6)).board.pts = (afterBad d).board.pts) (show ¬ (afterGood (6, 6)).board.pts = (afterBad (1, 1)).board.pts by decide)
  · exact h
  · exact absurd (h ▸ rfl : (afterReply (6, 6)).board.pts = (afterBad d).board.pts) (show ¬ (afterReply (6, 6)).board.pts = (afterBad (1, 1)).board.pts by decide)
  · exact absurd rfl h

theorem seen_reply {d : Int × Int} (h : Seen (afterReply d)) : afterReply d = afterReply (6, 6) := by
  rcases h with h | h | h | h | ⟨h, -⟩
  · exact absurd (h ▸ rfl : race.board.pts = (afterReply d).board.pts) (show ¬ race.board.pts = (afterReply (1, 1)).board.pts by decide)
  · exact absurd (h ▸ rfl : (afterGood (6, 6)).board.pts = (afterReply d).board.pts) (show ¬ (afterGood (6, 6)).board.pts = (afterReply (1, 1)).board.pts by decide)
  · exact absurd (h ▸ rfl : (afterBad (1, 2)).board.pts = (afterReply d).board.pts) (show ¬ (afterBad (1, 2)).board.pts = (afterReply (1, 1)).board.pts by decide)
  · exact h
  · exact absurd rfl h

theorem seen_rolls {N limit : Nat} {st : Store (BG.game pf) Fl} {tr : List Nat} {t t' : Tape}
    (h : buildTree (G := BG.game pf) Fl race (-1) N limit t = .ok ((st, tr), t')) (hs : AllR (fun s : BG.State => Seen s) st) :
    Rolls (G := BG.game pf) good bad (-1) st := by
  obtain ⟨w, ⟨rn, r1, r2, -⟩, -⟩ := C36_well_formed h
  have child : ∀ (p c : Nat) (pn cn : Node (BG.game pf) Fl) (a : BG.Actions), st[p]? = some pn → st[c]? = some cn →
      cn.parent = some p → cn.action = some a → Plays (BG.game pf) pn.state a cn.state := by
    intro p c pn cn a hp hc hpar ha
    obtain ⟨-, qn, -, k1, k2, -⟩ := w.up c cn p hc hpar
    rw [hp] at k1
    cases Option.some.inj k1
    obtain ⟨b, ms, e1, -, -, e2⟩ := child_legal w hp k2 hc
    rw [ha] at e1
    cases Option.some.inj e1
    exact e2
  have hgood : ∀ (c : Nat) (n : Node (BG.game pf) Fl), RootChild st c n → n.action = some good → n.state = afterGood (6, 6) := by
    intro c n hc ha
    have hp := child 0 c rn n good r1 hc.1 hc.2 ha
    rw [r2] at hp
    obtain ⟨s0, e, hs0⟩ := bg_plays hp
    rw [race_good pf] at e
    cases Except.ok.inj e
    have hq : Seen n.state := hs c n hc.1
    rcases hs0 with ⟨e, -⟩ | ⟨-, d, hd, e⟩
    · exact absurd e (by decide)
    · have e : n.state = afterGood d := e
      rw [e] at hq ⊢
      exact seen_good hq
  have hbad : ∀ (c : Nat) (n : Node (BG.game pf) Fl), RootChild st c n → n.action = some bad → n.state = afterBad (1, 2) := by
    intro c n hc ha
    have hp := child 0 c rn n bad r1 hc.1 hc.2 ha
    rw [r2] at hp
    obtain ⟨s0, e, hs0⟩ := bg_plays hp
    rw [race_bad pf] at e
    cases Except.ok.inj e
    have hq : Seen n.state := hs c n hc.1
    rcases hs0 with ⟨e, -⟩ | ⟨-, d, hd, e⟩
    · exact absurd e (by decide)
    · have e : n.state = afterBad d := e
      rw [e] at hq ⊢
      exact seen_bad hq
  refine ⟨?_, ?_, ?_⟩
  · intro c n hc ha
    rw [hgood c n hc ha]
    exact good_ends pf
  · intro c n hc ha
    rw [hbad c n hc ha]
    exact ⟨rfl, reply, reply_moves pf⟩
  · intro c d n m hc ha hd hpar
    obtain ⟨-, qn, a, k1, k2, k3, -⟩ := w.up d m c hd hpar
    rw [hc.1] at k1
    cases Option.some.inj k1
    obtain ⟨b, ms, e1, e2, e3, e4⟩ := child_legal w hc.1 k2 hd
    rw [hbad c n hc ha] at e2 e4
    have e2 : BG.getValidMoves pf (afterBad (1, 2)) = .ok ms := e2
    rw [reply_moves pf] at e2
    cases Except.ok.inj e2
    cases List.mem_singleton.1 e3
    obtain ⟨s0, e, hs0⟩ := bg_plays e4
    rw [reply_apply pf] at e
    cases Except.ok.inj e
    have hq : Seen m.state := hs d m hd
    rcases hs0 with ⟨e, -⟩ | ⟨-, x, hx, e⟩
    · exact absurd e (by decide)
    · have e : m.state = afterReply x := e
      rw [e] at hq ⊢
      rw [seen_reply hq]
      exact reply_ends pf

/-- For every number of iterations there are such rolls. -/
theorem seen_run (Fl : Floats) (N limit : Nat) : ∃ (t t' : Tape) (st : Store (BG.game pf) Fl) (tr : List Nat),
    buildTree (G := BG.game pf) Fl race (-1) N limit t = .ok ((st, tr), t') ∧ Rolls (G := BG.game pf) good bad (-1) st := by
  have hm : (BG.game pf).moves race = .ok [good, bad] := race_moves pf
  obtain ⟨st, tr, h1, h2⟩ := iterate_free (Fl := Fl) (bg_free pf) (fun s (h : Seen s) => h.ok) (seen_free pf) N
    (start_run (G := BG.game pf) (Fl := Fl) hm) (by
      intro i n hi
      have h0 : i = 0 := by
        have := (List.getElem?_eq_some_iff.1 hi).1
        simp at this
        omega
      subst h0
      rw [← Option.some.inj hi]
      exact .inl rfl) (-1) limit
  obtain ⟨t, e⟩ := h1 (fun _ => 0)
  have hb : buildTree (G := BG.game pf) Fl race (-1) N limit t = .ok ((st, tr), fun _ => 0) := by
    unfold buildTree
    exact M.bind_ok.2 ⟨_, t, M.lift_ok.2 ⟨addNode_ok.2 ⟨_, hm, rfl, rfl⟩, rfl⟩, e⟩
  exact ⟨t, _, st, tr, hb, seen_rolls pf hb h2⟩

/-- A game of 37 plays that leads to the position. -/
def raceGame : List (BG.Actions × (Int × Int)) :=
  [([(7, 1), (23, 17)], (6, 6)), ([(23, 17), (12, 6)], (3, 4)), ([(0, 3), (0, 4)], (4, 4)),
   ([(12, 8), (17, 13)], (4, 4)), ([(17, 13), (13, 9)], (6, 6)), ([(4, 10), (10, 16)], (6, 6)),
   ([(11, 17), (11, 17)], (3, 3)), ([(13, 10), (12, 9)], (3, 3)), ([(12, 9), (12, 9)], (6, 6)),
   ([(11, 17), (11, 17)], (6, 6)), ([(11, 17), (17, 23)], (6, 6)), ([(8, 2), (10, 4)], (6, 6)),
   ([(7, 1), (7, 1)], (5, 5)), ([(3, 8), (17, 22)], (5, 5)), ([(8, 13), (13, 18)], (4, 6)),
   ([(4, 0), (9, 3)], (6, 5)), ([(16, 22), (17, 22)], (5, 6)), ([(5, 0), (9, 3)], (3, 3)),
   ([(17, 20), (20, 23)], (3, 3)), ([(16, 19), (16, 19)], (5, 6)), ([(9, 4), (9, 3)], (5, 5)),
   ([(16, 21), (17, 22)], (5, 5)), ([(19, -1), (19, -1)], (6, 6)), ([(6, 0), (5, -1)], (6, 6)),
   ([(5, -1), (5, -1)], (6, 6)), ([(18, -1), (18, -1)], (6, 6)), ([(18, -1), (18, -1)], (4, 4)),
   ([(5, 1), (3, -1)], (4, 4)), ([(3, -1), (3, -1)], (1, 6)), ([(23, -1), (18, -1)], (2, 2)),
   ([(1, -1), (1, -1)], (2, 2)), ([(4, 2), (1, -1)], (2, 2)), ([(22, -1), (22, -1)], (2, 2)),
   ([(22, -1), (22, -1)], (1, 1)), ([(0, -1), (0, -1)], (1, 1)), ([(0, -1), (2, 1)], (3, 1)),
   ([(21, -1), (23, -1)], (6, 1))]

theorem race_played : Spec.Played pf race :=
  BG.playScript_played raceGame (.start (dice := (6, 6)) ⟨by decide, by decide⟩) (by decide +kernel)

/-- C106 in full: if in a position of a game one move wins in the next turn whatever is rolled, unless the opponent has won before, and another does
not, the search returns the latter for no roll if it is given enough iterations. -/
def C106_statement : Prop :=
  ∀ (s : BG.State) (x y : BG.Actions) (ms : List BG.Actions), Spec.Played pf s → BG.checkWinner s = none →
    BG.getValidMoves pf s = .ok ms → x ∈ ms → y ∈ ms →
    (∀ s', Plays (BG.game pf) s x s' → WinsNext (BG.game pf) s.player s') →
    (∃ s', Plays (BG.game pf) s y s' ∧ ¬ WinsNext (BG.game pf) s.player s') →
    ∃ N0 < 2 ^ 24, ∀ (N limit : Nat) (mv : BG.Actions) (t t' : Tape), N0 ≤ N → N < 2 ^ 24 → 0 < limit →
      mctSearch (G := BG.game pf) (realFloats 2) s s.player N limit t = .ok (mv, t') → mv ≠ y

theorem C106_refuted : ¬ C106_statement pf := by
  intro h
  obtain ⟨N0, hN0, h⟩ := h race good bad [good, bad] (race_played pf) rfl (race_moves pf) (by decide) (by decide)
    (fun s' hs => good_wins pf hs) (bad_waits pf)
  have hlt : max N0 16 < 2 ^ 24 := by
    rw [Nat.max_lt]
    exact ⟨hN0, by norm_num⟩
  obtain ⟨t, t', st, tr, hb, hr⟩ := seen_run pf (realFloats 2) (max N0 16) 400
  exact h (max N0 16) 400 bad t t' (Nat.le_max_left _ _) hlt (by norm_num)
    (C106_frozen pf (Nat.le_max_right _ _) hlt (by norm_num) hb hr) rfl

/-- The configuration of the repository: exploration constant 2, 100 iterations, rollouts of up to 400 moves.  For some rolls
the search returns the bad move. -/
example : ∃ t t', mctSearch (G := BG.game .release) (single (.fin 2) Fn.roundedLn) race (-1) 100 400 t = .ok (bad, t') := by
  obtain ⟨t, t', st, tr, hb, hr⟩ := seen_run .release (single (.fin 2) Fn.roundedLn) 100 400
  exact ⟨t, t', C106_frozen_single .release Fn.roundedLn_ok (by norm_num) (by norm_num) (by norm_num) hb hr⟩

end DieE.Props.Fz
