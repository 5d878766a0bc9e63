import Verif.Train.Spec
import Verif.Props.Alpha

/-! # What the batched self-play loop does -/

namespace DieE.Train
open DieE.Mcts DieE.Props.A

variable {G : Game} {Fl : Floats}

theorem frags_append (f : Int → Int) (l l' : List (Turn G)) : frags f (l ++ l') = frags f l ++ frags f l' := by
  unfold frags; rw [List.flatMap_append]

theorem frags_single (f : Int → Int) (t : Turn G) : frags f [t] = fragOf f t := by
  unfold frags; simp

theorem relabel_fragOf (f : Int → Int) (t : Turn G) : relabel f (fragOf id t) = fragOf f t := by
  cases t with
  | skip s s' => rfl
  | move s ps a s' =>
    unfold fragOf
    simp only
    cases G.tensor s <;> rfl

theorem relabel_frags (f : Int → Int) (l : List (Turn G)) : relabel f (frags id l) = frags f l := by
  induction l with
  | nil => rfl
  | cons t l ih =>
    have e : t :: l = [t] ++ l := rfl
    rw [e, frags_append, frags_append, frags_single, frags_single, ← ih, ← relabel_fragOf f]
    unfold relabel
    rw [List.map_append]

theorem label_eq (w : Int) : label w = result w := rfl

/-- What the search hands to the loop for a state: whether the root has children, and a row which is a distribution over
legal moves. -/
structure RowOK (s : G.S) (row : Row) (root : Node G Fl) (ms : List G.Mv) : Prop where
  moves : G.moves s = .ok ms
  stuck : ms = [] → root.children = []
  live : ms ≠ [] → root.children ≠ [] ∧ IsDist G.actionSpace row
  code : ∀ c x, row c = some x → x ≠ 0 → ∃ a ∈ ms, G.encode s a = .ok c

/-- What is needed of the power function of the temperature. -/
structure PwOK (pw : Rat → Rat) : Prop where
  zero : pw 0 = 0
  nonneg : ∀ x, 0 ≤ x → 0 ≤ pw x

/-- The temperature is not so low that all of the entries of a row of `N` entries may vanish: a power which underflows to
zero is no problem unless the row has an entry of at least `1 / N` which does. -/
structure PwWarm (N : Nat) (pw : Rat → Rat) : Prop extends PwOK pw where
  pos : ∀ x : Rat, 0 < x → 1 ≤ N * x → 0 < pw x

/-- Some entry of a distribution is at least the average. -/
theorem isDist_pos {N : Nat} {p : Row} {q : Nat → Rat} (hq : ∀ c, c < N → p c = some (q c) ∧ 0 ≤ q c)
    (hsum : ((List.range N).map q).sum = 1) : ∃ d, d < N ∧ 0 < q d ∧ 1 ≤ N * q d := by
  have hN : 0 < N := by
    rcases Nat.eq_zero_or_pos N with rfl | h
    · simp at hsum
    · exact h
  have hN' : (0 : Rat) < N := by exact_mod_cast hN
  by_contra hno
  have hlt : ∀ d, d < N → q d < 1 / N := by
    intro d hd
    by_contra hge
    have h1 : 1 ≤ N * q d := by
      have := mul_le_mul_of_nonneg_left (not_lt.1 hge) hN'.le
      rwa [mul_one_div_cancel hN'.ne'] at this
    refine hno ⟨d, hd, ?_, h1⟩
    rcases lt_or_eq_of_le (hq d hd).2 with h | h
    · exact h
    · rw [← h, mul_zero] at h1
      exact absurd h1 (by decide)
  have h2 : ((List.range N).map q).sum < ((List.range N).map fun _ => (1 / N : Rat)).sum := by
    refine List.sum_lt_sum _ _ (fun d hd => (hlt d (List.mem_range.1 hd)).le) ⟨0, List.mem_range.2 hN, hlt 0 hN⟩
  rw [hsum, List.map_const', List.sum_replicate, List.length_range, nsmul_eq_mul, mul_one_div_cancel hN'.ne'] at h2
  exact absurd h2 (lt_irrefl _)

/-- A tempered distribution whose sum is not zero can be drawn from, otherwise all of its entries are zero. -/
theorem temper_cases {N : Nat} {p : Row} (hp : IsDist N p) {pw : Rat → Rat} (hpw : PwOK pw) :
    ((rowSum N (temper pw p)).isNonzero = true ∧ ∀ t, ∃ c t', weightedSelect N (temper pw p) t = .ok (c, t')) ∨
    ((rowSum N (temper pw p)).isNonzero = false ∧ ∀ c, c < N → (p c).map pw = some 0) := by
  obtain ⟨q, hq, hsum⟩ := hp
  have ht : ∀ c, c < N → temper pw p c = some (pw (q c)) := by
    intro c hc
    unfold temper
    rw [(hq c hc).1]
    rfl
  have hn : ∀ c, c < N → 0 ≤ pw (q c) := fun c hc => hpw.nonneg _ (hq c hc).2
  by_cases hz : ∀ c, c < N → pw (q c) = 0
  · right
    constructor
    · rw [rowSum_some ht]
      unfold Val.isNonzero
      simp only [decide_eq_false_iff_not, not_not]
      refine List.sum_eq_zero ?_
      intro x hx
      obtain ⟨d, hd, rfl⟩ := List.mem_map.1 hx
      exact hz d (List.mem_range.1 hd)
    · intro c hc
      rw [← hz c hc, ← ht c hc]
      rfl
  · left
    push Not at hz
    obtain ⟨d, hd1, hd2⟩ := hz
    have hd2 : 0 < pw (q d) := lt_of_le_of_ne (hn d hd1) (Ne.symm hd2)
    constructor
    · rw [rowSum_some ht]
      unfold Val.isNonzero
      simp only [decide_eq_true_eq]
      have h1 : pw (q d) ≤ ((List.range N).map fun c => pw (q c)).sum := by
        refine List.single_le_sum ?_ _ (List.mem_map_of_mem (List.mem_range.2 hd1))
        intro x hx
        obtain ⟨c, hc, rfl⟩ := List.mem_map.1 hx
        exact hn c (List.mem_range.1 hc)
      exact ne_of_gt (lt_of_lt_of_le hd2 h1)
    · intro t
      exact weightedSelect_progress (fun c hc => ⟨_, ht c hc, hn c hc⟩) hd1 (ht d hd1) hd2 t

/-- At a temperature which is not too low no distribution vanishes. -/
theorem not_vanishes {N : Nat} {pw : Rat → Rat} (hpw : PwWarm N pw) : ¬ Vanishes N pw := by
  rintro ⟨p, ⟨q, hq, hsum⟩, hz⟩
  obtain ⟨d, hd1, hd2, hd3⟩ := isDist_pos hq hsum
  have h := hz d hd1
  rw [(hq d hd1).1] at h
  have h : pw (q d) = 0 := by simpa using h
  exact absurd h (hpw.pos _ hd2 hd3).ne'

/-- A tempered distribution has a nonzero sum and can be drawn from. -/
theorem temper_dist {N : Nat} {p : Row} (hp : IsDist N p) {pw : Rat → Rat} (hpw : PwWarm N pw) :
    (rowSum N (temper pw p)).isNonzero = true ∧ ∀ t, ∃ c t', weightedSelect N (temper pw p) t = .ok (c, t') := by
  rcases temper_cases hp hpw.toPwOK with h | h
  · exact h
  · exact absurd ⟨p, hp, h.2⟩ (not_vanishes hpw)

theorem index_eq {α : Type} {v : List α} {i : Nat} {x : α} (h : v[i]? = some x) : index v i = .ok x := by
  unfold index; rw [h]

theorem set_same {α : Type} {v : List α} {i : Nat} {x : α} (h : v[i]? = some x) : v.set i x = v := by
  obtain ⟨hl, rfl⟩ := List.getElem?_eq_some_iff.1 h
  exact List.set_getElem_self hl

open Classical in
/-- One turn of one game. -/
theorem playState_spec {R : G.S → Prop} (hs : SafeNet G R) (hc : Coded G R) (cfg : SelfPlayConfig) (hpw : PwOK cfg.pw)
    {row : Row} {root : Node G Fl} {s : G.S} {ms : List G.Mv} (hrow : RowOK s row root ms) (hR : R s) {i r : Nat}
    {mem : List Frag} {sp : SelfPlay G} (hr : sp.rounds[i]? = some r) (hm : sp.mems[i]? = some mem) (t : Tape) :
    ∃ sp' t' turn, playState cfg (temper cfg.pw row) root i s sp t = .ok ((turn.after, sp'), t') ∧
      turn.before = s ∧ Turn.Fair cfg.pw turn ∧ R turn.after ∧ sp'.rounds = sp.rounds.set i (r + 1) ∧
      sp'.mems = sp.mems.set i (mem ++ fragOf id turn) ∧
      sp'.turns = (fun j => if j = i then sp.turns i ++ [turn] else sp.turns j) ∧
      sp'.all = sp.all ++ (if cfg.limit ≤ r then relabel (fun _ => 0) mem else []) ++
        (match turn.decides with
          | some w => relabel (label w) (mem ++ fragOf id turn)
          | none => []) ∧
      ∀ j, j ∈ sp'.remove ↔ j ∈ sp.remove ∨ (j = i ∧ (cfg.limit ≤ r ∨ turn.decides ≠ none)) := by
  have hil : i < sp.mems.length := (List.getElem?_eq_some_iff.1 hm).1
  obtain ⟨sp1, h1, h1r, h1m, h1t, h1a, h1d⟩ : ∃ sp1, checkLimit cfg.limit i sp = .ok sp1 ∧ sp1.rounds = sp.rounds ∧
      sp1.mems = sp.mems ∧ sp1.turns = sp.turns ∧ sp1.all = sp.all ++ (if cfg.limit ≤ r then relabel (fun _ => 0) mem else []) ∧
      ∀ j, j ∈ sp1.remove ↔ j ∈ sp.remove ∨ (j = i ∧ cfg.limit ≤ r) := by
    unfold checkLimit
    rw [index_eq hr]
    simp only [bind, Except.bind]
    by_cases hl : cfg.limit ≤ r
    · rw [if_pos hl, index_eq hm]
      refine ⟨_, rfl, rfl, rfl, rfl, ?_, ?_⟩
      · simp only [if_pos hl]
      · intro j; simp [hl]
    · rw [if_neg hl]
      refine ⟨_, rfl, rfl, rfl, rfl, ?_, ?_⟩
      · rw [if_neg hl, List.append_nil]
      · intro j; simp [hl]
  unfold playState
  by_cases hpass : (!(rowSum G.actionSpace (temper cfg.pw row)).isNonzero || root.children.isEmpty) = true
  · -- the turn is passed
    obtain ⟨s', t', h2, h3⟩ := hs.skip s hR t
    refine ⟨record i (.skip s s') { sp1 with rounds := sp.rounds.set i (r + 1) }, t', .skip s s', ?_, rfl, ⟨?_, t, t', h2⟩,
      h3, rfl, ?_, ?_, ?_, ?_⟩
    · refine (M.bind_eq (by rw [h1]; rfl)).trans ?_
      rw [if_pos hpass]
      refine (M.bind_eq (a := { sp1 with rounds := sp.rounds.set i (r + 1) }) (t' := t) ?_).trans ?_
      · unfold addRound
        rw [h1r, index_eq hr]
        rfl
      · exact (M.bind_eq h2).trans rfl
    · by_cases hms : ms = []
      · left; rw [hrow.moves, hms]
      · obtain ⟨hch, hdist⟩ := hrow.live hms
        rcases temper_cases hdist hpw with h | h
        · rw [h.1] at hpass
          exact absurd (by simpa using hpass) hch
        · exact .inr ⟨row, hdist, h.2⟩
    · show sp1.mems = sp.mems.set i (mem ++ [])
      rw [h1m, List.append_nil, set_same hm]
    · show (fun j => if j = i then sp1.turns i ++ _ else sp1.turns j) = _
      rw [h1t]
    · show sp1.all = _ ++ _ ++ []
      rw [h1a, List.append_nil]
    · intro j
      show j ∈ sp1.remove ↔ _
      rw [h1d j]
      simp [Turn.decides]
  · have hms : ms ≠ [] := by
      rintro rfl
      exact hpass (by rw [hrow.stuck rfl]; simp)
    obtain ⟨hch, hdist⟩ := hrow.live hms
    obtain ⟨hnz, hsel⟩ : (rowSum G.actionSpace (temper cfg.pw row)).isNonzero = true ∧
        ∀ t, ∃ c t', weightedSelect G.actionSpace (temper cfg.pw row) t = .ok (c, t') := by
      rcases temper_cases hdist hpw with h | h
      · exact h
      · exact absurd (by rw [h.1]; rfl) hpass
    obtain ⟨c, t1, h2⟩ := hsel t
    obtain ⟨sh, htensor⟩ := hs.tensor
    obtain ⟨x, hx, -⟩ := htensor s hR
    obtain ⟨hcN, y, hy, hypos⟩ := weightedSelect_ok h2
    obtain ⟨z, hz, hz0⟩ : ∃ z, row c = some z ∧ z ≠ 0 := by
      unfold temper at hy
      cases hrc : row c with
      | none => rw [hrc] at hy; cases hy
      | some z =>
        refine ⟨z, rfl, ?_⟩
        rintro rfl
        rw [hrc] at hy
        simp only [Option.map_some, Option.some.injEq, hpw.zero] at hy
        rw [← hy] at hypos
        exact absurd hypos (lt_irrefl _)
    obtain ⟨a, ha, henc⟩ := hrow.code c z hz hz0
    obtain ⟨c', k1, -, hdec⟩ := hc.code s ms a hR hrow.moves ha
    rw [henc] at k1
    injection k1 with k1
    subst k1
    obtain ⟨s', t2, h3⟩ := hs.apply s ms a hR hrow.moves ha t1
    have hR' := hs.closed s ms a s' hR hrow.moves ha ⟨_, _, h3⟩
    let fr : Frag := { outcome := G.player s, ps := temper cfg.pw row, state := x }
    have hfr : fragOf id (Turn.move s (temper cfg.pw row) a s') = [fr] := by
      unfold fragOf
      simp only
      rw [hx]
      rfl
    let sp2 : SelfPlay G := record i (.move s (temper cfg.pw row) a s')
      { sp1 with mems := sp.mems.set i (mem ++ [fr]), rounds := sp.rounds.set i (r + 1) }
    have h2t : sp2.turns = fun j => if j = i then sp.turns i ++ [Turn.move s (temper cfg.pw row) a s'] else sp.turns j := by
      show (fun j => if j = i then sp1.turns i ++ _ else sp1.turns j) = _
      rw [h1t]
    have hrun : ∀ (k : G.S × SelfPlay G) , (match G.winner s' with
        | some w => (do
          let mem ← M.lift (index sp2.mems i)
          pure (s', { sp2 with all := sp2.all ++ relabel (label w) mem, remove := sp2.remove ++ [i] }) : M (G.S × SelfPlay G))
        | none => pure (s', sp2)) t2 = .ok (k, t2) →
        playState cfg (temper cfg.pw row) root i s sp t = .ok (k, t2) := by
      intro k hk
      unfold playState
      refine (M.bind_eq (by rw [h1]; rfl)).trans ?_
      rw [if_neg (by rw [hnz]; simpa using hch)]
      refine (M.bind_eq h2).trans ?_
      refine (M.bind_eq (by rw [hx]; rfl)).trans ?_
      refine (M.bind_eq (by rw [h1m, index_eq hm]; rfl)).trans ?_
      refine (M.bind_eq (by rw [hdec]; rfl)).trans ?_
      refine (M.bind_eq (by rw [hrow.moves]; rfl)).trans ?_
      refine (M.bind_eq (a := ()) (t' := t1) (by
        unfold assert
        rw [if_pos (by simpa using ha)]
        rfl)).trans ?_
      refine (M.bind_eq h3).trans ?_
      refine (M.bind_eq (a := { sp1 with mems := sp.mems.set i (mem ++ [fr]), rounds := sp.rounds.set i (r + 1) }) (t' := t2) (by
        unfold addRound
        simp only [h1r]
        rw [index_eq hr, h1m]
        rfl)).trans ?_
      exact hk
    have hfair : Turn.Fair cfg.pw (Turn.move s (temper cfg.pw row) a s') :=
      ⟨⟨ms, hrow.moves, ha⟩, ⟨_, _, h3⟩, ⟨c, y, hcN, henc, hy, hypos⟩, row, hdist, fun _ => rfl,
        fun c x hx h0 => ⟨ms, hrow.moves, hrow.code c x hx h0⟩⟩
    cases hw : G.winner s' with
    | none =>
      refine ⟨sp2, t2, .move s (temper cfg.pw row) a s', hrun _ (by rw [hw]; rfl), rfl, hfair, hR', rfl, ?_, h2t, ?_, ?_⟩
      · show sp.mems.set i (mem ++ [fr]) = _
        rw [hfr]
      · show sp1.all = _ ++ _ ++ (match G.winner s' with
          | some w => relabel (label w) _
          | none => [])
        rw [h1a, hw, List.append_nil]
      · intro j
        show j ∈ sp1.remove ↔ _ ∨ (j = i ∧ (cfg.limit ≤ r ∨ G.winner s' ≠ none))
        rw [h1d j, hw]
        simp
    | some w =>
      refine ⟨{ sp2 with all := sp2.all ++ relabel (label w) (mem ++ [fr]), remove := sp2.remove ++ [i] }, t2,
        .move s (temper cfg.pw row) a s', hrun _ ?_, rfl, hfair, hR', rfl, ?_, h2t, ?_, ?_⟩
      · rw [hw]
        refine (M.bind_eq (a := mem ++ [fr]) (t' := t2) ?_).trans rfl
        rw [index_eq (x := mem ++ [fr]) (by
          show (sp.mems.set i (mem ++ [fr]))[i]? = _
          rw [List.getElem?_set_self hil])]
        rfl
      · show sp.mems.set i (mem ++ [fr]) = _
        rw [hfr]
      · show sp1.all ++ relabel (label w) (mem ++ [fr]) = _ ++ _ ++ (match G.winner s' with
          | some w => relabel (label w) _
          | none => [])
        rw [h1a, hw, hfr]
      · intro j
        show j ∈ sp1.remove ++ [i] ↔ _ ∨ (j = i ∧ (cfg.limit ≤ r ∨ G.winner s' ≠ none))
        rw [List.mem_append, h1d j, hw]
        simp only [List.mem_singleton, ne_eq, reduceCtorEq, not_false_eq_true, or_true, and_true]
        tauto

/-- What the loop returns for a finished game: at the round limit its fragments with label 0, without the turn played
after the limit was noticed; and if that turn, or an earlier one, decides the game, its fragments with the result. -/
def emitted (limit : Nat) (l : List (Turn G)) : List Frag :=
  (if limit < l.length then frags (fun _ => 0) (l.take limit) else []) ++
    (match decided l with
      | some w => frags (result w) l
      | none => [])

/-- When a game is taken out of the pool. -/
def Ended (limit : Nat) (l : List (Turn G)) : Prop := l.length = limit + 1 ∨ (l.length ≤ limit ∧ decided l ≠ none)

theorem decided_snoc (l : List (Turn G)) (t : Turn G) : decided (l ++ [t]) = t.decides := by
  unfold decided; simp

theorem Open.snoc {l : List (Turn G)} (h : Open l) (hd : decided l = none) (t : Turn G) : Open (l ++ [t]) := by
  intro k hk
  simp only [List.length_append, List.length_singleton] at hk
  rw [List.take_append_of_le_length (by omega)]
  by_cases hkl : k = l.length
  · rw [hkl, List.take_length]; exact hd
  · exact h k (by omega)

/-- The variables of the loop in terms of the histories of the games; `D` lists the finished games. -/
structure Inv (R : G.S → Prop) (pw : Rat → Rat) (n limit : Nat) (init : Nat → G.S) (logs : Nat → List (Turn G)) (D : List Nat)
    (sp : SelfPlay G) : Prop where
  mems : ∀ i, i < n → sp.mems[i]? = some (frags id (logs i))
  rounds : ∀ i, i < n → sp.rounds[i]? = some (logs i).length
  count : sp.mems.length = n
  turns : sp.turns = logs
  all : sp.all = D.flatMap fun i => emitted limit (logs i)
  opn : ∀ i, i < n → Open (logs i)
  log : ∀ i, i < n → ∃ s, Log G pw (init i) (logs i) s
  done : ∀ i ∈ D, i < n ∧ Ended limit (logs i)
  nodup : D.Nodup

/-- A game of the pool at the start of pass `k`. -/
structure Active (R : G.S → Prop) (pw : Rat → Rat) (n : Nat) (init : Nat → G.S) (logs : Nat → List (Turn G)) (D : List Nat) (k i : Nat)
    (s : G.S) : Prop where
  lt : i < n
  log : Log G pw (init i) (logs i) s
  len : (logs i).length = k
  undecided : decided (logs i) = none
  ok : R s
  fresh : i ∉ D

/-- A game after its turn in pass `k`. -/
structure Played (R : G.S → Prop) (pw : Rat → Rat) (limit : Nat) (init : Nat → G.S) (logs : Nat → List (Turn G)) (D : List Nat) (k i : Nat)
    (s : G.S) : Prop where
  log : Log G pw (init i) (logs i) s
  len : (logs i).length = k + 1
  ok : R s
  undecided : i ∉ D → decided (logs i) = none ∧ k < limit

theorem playStates_spec {R : G.S → Prop} (hs : SafeNet G R) (hc : Coded G R) (cfg : SelfPlayConfig) (hpw : PwOK cfg.pw)
    {rows : List Row} {st : Store G Fl} {n : Nat} {init : Nat → G.S} {k : Nat} (hk : k ≤ cfg.limit)
    (rest : List (Nat × G.S)) (p : Nat) (logs : Nat → List (Turn G)) (D : List Nat) (sp : SelfPlay G) (t : Tape)
    (hrows : ∀ (j i : Nat) (s : G.S), rest[j]? = some (i, s) →
      ∃ row root ms, rows[p + j]? = some row ∧ getNode st (p + j) = .ok root ∧ RowOK s row root ms)
    (hinv : Inv R cfg.pw n cfg.limit init logs D sp) (hnd : (rest.map Prod.fst).Nodup)
    (hact : ∀ e ∈ rest, Active R cfg.pw n init logs D k e.1 e.2) :
    ∃ rest' sp' t' logs' E, playStates cfg rows st p rest sp t = .ok ((rest', sp'), t') ∧
      Inv R cfg.pw n cfg.limit init logs' (D ++ E) sp' ∧ rest'.map Prod.fst = rest.map Prod.fst ∧
      (∀ j, j ∉ rest.map Prod.fst → logs' j = logs j) ∧ (∀ i ∈ E, i ∈ rest.map Prod.fst) ∧
      (∀ e ∈ rest', Played R cfg.pw cfg.limit init logs' (D ++ E) k e.1 e.2) ∧
      ∀ j, j ∈ sp'.remove ↔ j ∈ sp.remove ∨ j ∈ E := by
  induction rest generalizing p logs D sp t with
  | nil =>
    refine ⟨[], sp, t, logs, [], rfl, by simpa using hinv, rfl, fun _ _ => rfl, by simp, by simp, by simp⟩
  | cons e rest ih =>
    obtain ⟨i, s⟩ := e
    have ha := hact (i, s) (List.mem_cons_self ..)
    simp only at ha
    obtain ⟨row, root, ms, hrow1, hroot, hrowok⟩ := hrows 0 i s rfl
    rw [Nat.add_zero] at hrow1 hroot
    simp only [List.map_cons, List.nodup_cons] at hnd
    obtain ⟨sp1, t1, turn, h1, hbef, hfair, hR1, hr1, hm1, ht1, ha1, hd1⟩ :=
      playState_spec hs hc cfg hpw hrowok ha.ok (hinv.rounds i ha.lt) (hinv.mems i ha.lt) t
    rw [ha.len] at hr1 ha1 hd1
    let logs1 : Nat → List (Turn G) := fun j => if j = i then logs i ++ [turn] else logs j
    have hl1 : logs1 i = logs i ++ [turn] := if_pos rfl
    have hl2 : ∀ j, j ≠ i → logs1 j = logs j := fun j hj => if_neg hj
    have hrl : i < sp.rounds.length := (List.getElem?_eq_some_iff.1 (hinv.rounds i ha.lt)).1
    have hml : i < sp.mems.length := (List.getElem?_eq_some_iff.1 (hinv.mems i ha.lt)).1
    let fin : Prop := cfg.limit ≤ k ∨ turn.decides ≠ none
    obtain ⟨E1, hE1, hE1nd⟩ : ∃ E1 : List Nat, (∀ j, j ∈ E1 ↔ j = i ∧ fin) ∧ (E1 = [] ∧ ¬ fin ∨ E1 = [i] ∧ fin) := by
      by_cases hf : fin
      · exact ⟨[i], by simp [hf], .inr ⟨rfl, hf⟩⟩
      · exact ⟨[], by simp [hf], .inl ⟨rfl, hf⟩⟩
    have hlog1 : Log G cfg.pw (init i) (logs1 i) turn.after := by
      rw [hl1]; exact .snoc turn ha.log hbef hfair
    have hdec1 : decided (logs1 i) = turn.decides := by rw [hl1, decided_snoc]
    have hlen1 : (logs1 i).length = k + 1 := by rw [hl1, List.length_append, ha.len]; rfl
    have hDne : ∀ j ∈ D, j ≠ i := fun j hj he => ha.fresh (he ▸ hj)
    have hinv1 : Inv R cfg.pw n cfg.limit init logs1 (D ++ E1) sp1 := by
      refine ⟨?_, ?_, ?_, ?_, ?_, ?_, ?_, ?_, ?_⟩
      · intro j hj
        rw [hm1]
        by_cases hji : j = i
        · subst hji
          rw [List.getElem?_set_self hml, hl1, frags_append, frags_single]
        · rw [List.getElem?_set_ne (Ne.symm hji), hl2 j hji]
          exact hinv.mems j hj
      · intro j hj
        rw [hr1]
        by_cases hji : j = i
        · subst hji
          rw [List.getElem?_set_self hrl, hlen1]
        · rw [List.getElem?_set_ne (Ne.symm hji), hl2 j hji]
          exact hinv.rounds j hj
      · rw [hm1, List.length_set, hinv.count]
      · rw [ht1, hinv.turns]
      · have hD : D.flatMap (fun j => emitted cfg.limit (logs1 j)) = D.flatMap fun j => emitted cfg.limit (logs j) := by
          apply List.flatMap_congr
          intro j hj
          rw [hl2 j (hDne j hj)]
        rw [List.flatMap_append, hD, ← hinv.all, ha1, List.append_assoc]
        congr 1
        have hem : emitted cfg.limit (logs1 i) =
            (if cfg.limit ≤ k then relabel (fun _ => 0) (frags id (logs i)) else []) ++
              (match turn.decides with
                | some w => relabel (label w) (frags id (logs i) ++ fragOf id turn)
                | none => []) := by
          unfold emitted
          rw [hdec1, hlen1]
          congr 1
          · by_cases hlk : cfg.limit ≤ k
            · rw [if_pos hlk, if_pos (by omega), relabel_frags]
              have : cfg.limit = k := by omega
              rw [hl1, this, ← ha.len, List.take_left']
              rfl
            · rw [if_neg hlk, if_neg (by omega)]
          · cases turn.decides with
            | none => rfl
            | some w =>
              simp only
              rw [hl1, ← frags_single, ← frags_append, relabel_frags, label_eq]
        rcases hE1nd with ⟨rfl, hf⟩ | ⟨rfl, hf⟩
        · have h1 : ¬ cfg.limit ≤ k := fun h => hf (.inl h)
          have h2 : turn.decides = none := by
            by_contra h
            exact hf (.inr h)
          rw [if_neg h1, h2]
          rfl
        · simp only [List.flatMap_cons, List.flatMap_nil, List.append_nil]
          exact hem.symm
      · intro j hj
        by_cases hji : j = i
        · subst hji
          rw [hl1]; exact (hinv.opn j hj).snoc ha.undecided turn
        · rw [hl2 j hji]; exact hinv.opn j hj
      · intro j hj
        by_cases hji : j = i
        · subst hji
          exact ⟨_, hlog1⟩
        · rw [hl2 j hji]; exact hinv.log j hj
      · intro j hj
        rcases List.mem_append.1 hj with hj | hj
        · rw [hl2 j (hDne j hj)]; exact hinv.done j hj
        · obtain ⟨rfl, hf⟩ := (hE1 j).1 hj
          refine ⟨ha.lt, ?_⟩
          unfold Ended
          rw [hlen1, hdec1]
          by_cases hlk : cfg.limit ≤ k
          · left; omega
          · right
            exact ⟨by omega, hf.resolve_left hlk⟩
      · rw [List.nodup_append]
        refine ⟨hinv.nodup, ?_, ?_⟩
        · rcases hE1nd with ⟨rfl, -⟩ | ⟨rfl, -⟩ <;> simp
        · intro a haD b hb hab
          subst hab
          exact hDne a haD ((hE1 a).1 hb).1
    obtain ⟨rest', sp2, t2, logs2, E2, g1, g2, g3, g4, g5, g6, g7⟩ := ih (p + 1) logs1 (D ++ E1) sp1 t1
      (fun j i' s' hj => by
        obtain ⟨row', root', ms', q1, q2, q3⟩ := hrows (j + 1) i' s' (by simpa using hj)
        exact ⟨row', root', ms', by rw [← q1]; congr 1; omega, by rw [← q2]; congr 1; omega, q3⟩)
      hinv1 hnd.2 (fun e he => by
        have hae := hact e (List.mem_cons_of_mem _ he)
        have hne : e.1 ≠ i := fun h => hnd.1 (h ▸ List.mem_map_of_mem he)
        refine ⟨hae.lt, ?_, ?_, ?_, hae.ok, ?_⟩
        · rw [hl2 _ hne]; exact hae.log
        · rw [hl2 _ hne]; exact hae.len
        · rw [hl2 _ hne]; exact hae.undecided
        · rw [List.mem_append, not_or]
          exact ⟨hae.fresh, fun h => hne ((hE1 _).1 h).1⟩)
    have hi2 : logs2 i = logs1 i := g4 i hnd.1
    refine ⟨(i, turn.after) :: rest', sp2, t2, logs2, E1 ++ E2, ?_, ?_, ?_, ?_, ?_, ?_, ?_⟩
    · unfold playStates
      refine (M.bind_eq (a := row) (t' := t) (by rw [hrow1]; rfl)).trans ?_
      refine (M.bind_eq (by rw [hroot]; rfl)).trans ?_
      refine (M.bind_eq h1).trans ?_
      exact (M.bind_eq g1).trans rfl
    · rw [← List.append_assoc]; exact g2
    · rw [List.map_cons, List.map_cons, g3]
    · intro j hj
      simp only [List.map_cons, List.mem_cons, not_or] at hj
      rw [g4 j hj.2, hl2 j hj.1]
    · intro j hj
      rcases List.mem_append.1 hj with hj | hj
      · rw [((hE1 j).1 hj).1]; simp
      · exact List.mem_cons_of_mem _ (g5 j hj)
    · intro e he
      rw [← List.append_assoc]
      rcases List.mem_cons.1 he with rfl | he
      · refine ⟨?_, ?_, hR1, ?_⟩
        · rw [hi2]; exact hlog1
        · rw [hi2]; exact hlen1
        · intro hnot
          simp only [List.mem_append, not_or] at hnot
          have hnf : ¬ fin := fun hf => hnot.1.2 ((hE1 i).2 ⟨rfl, hf⟩)
          rw [hi2, hdec1]
          refine ⟨?_, ?_⟩
          · by_contra h
            exact hnf (.inr h)
          · by_contra h
            exact hnf (.inl (by omega))
      · exact g6 e he
    · intro j
      rw [g7 j, hd1 j, List.mem_append, hE1 j]
      tauto

end DieE.Train
