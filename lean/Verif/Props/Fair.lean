import Verif.Rand
import Verif.Props.Chances
import Verif.Props.Memory
import Mathlib.Data.List.Perm.Basic
import Mathlib.Data.List.Nodup

/-!
# C126: dice, random moves and shuffles are fair
-/

namespace DieE.Props.Fr
open DieE DieE.Rand DieE.Prob DieE.Mcts DieE.Versus DieE.Props.In MeasureTheory
open scoped Nat
variable {α β : Type} {Fl : Floats}

/-! ## The distribution of the results -/

theorem law_ask (k : Kind) (n : Nat) (f : Nat → Ask α) (A : Set α) :
    (Ask.ask k n f).law.toOuterMeasure A = ((n + 1 : Nat) : ENNReal)⁻¹ * ∑ h ∈ Finset.range (n + 1), (f h).law.toOuterMeasure A := by
  classical
  rw [Ask.law, PMF.toOuterMeasure_bind_apply, Finset.mul_sum,
    tsum_eq_sum (s := Finset.range (n + 1)) fun h hh => by rw [PMF.uniformOfFinset_apply, if_neg hh, zero_mul]]
  refine Finset.sum_congr rfl fun h hh => ?_
  rw [PMF.uniformOfFinset_apply, if_pos hh, Finset.card_range]

theorem law_done [DecidableEq α] (a b : α) : (Ask.done a).law.toOuterMeasure {b} = if a = b then 1 else 0 := by
  classical
  rw [Ask.law, PMF.toOuterMeasure_pure_apply]
  by_cases h : a = b
  · rw [if_pos h, if_pos (by rw [h]; rfl)]
  · rw [if_neg (show a ∉ ({b} : Set α) from h), if_neg h]

/-- C126: whatever numbers the code draws, with probability 1 the loops of `rand` come to an end. -/
theorem C126_ends {T : Ask α} (hT : T.Small) : iid uniform {t | ∃ a, Ran T t a} = 1 := by
  have : {t | ∃ a, Ran T t a} = Outcome T Set.univ := by
    ext t
    exact ⟨fun ⟨a, h⟩ => ⟨a, h, trivial⟩, fun ⟨a, h, _⟩ => ⟨a, h⟩⟩
  rw [this, ran_prob hT, PMF.toOuterMeasure_apply_eq_one_iff]
  exact Set.subset_univ _

/-! ## Dice -/

theorem dice_small : dice.Small := ⟨by decide, fun _ _ => ⟨by decide, fun _ _ => trivial⟩⟩

/-- C126: the two dice show each of the 36 pairs with probability 1/36. -/
theorem C126_dice {a b : Int} (ha : 1 ≤ a ∧ a ≤ 6) (hb : 1 ≤ b ∧ b ≤ 6) : iid uniform {t | Ran dice t (a, b)} = 1 / 36 := by
  have : {t | Ran dice t (a, b)} = Outcome dice {(a, b)} := by
    ext t
    exact ⟨fun h => ⟨_, h, rfl⟩, fun ⟨c, h, hc⟩ => by rw [← (show c = (a, b) from hc)]; exact h⟩
  rw [this, ran_prob dice_small]
  unfold dice
  rw [law_ask]
  simp only [law_ask, law_done, Prod.mk.injEq]
  obtain ⟨a, rfl⟩ : ∃ k : Nat, a = (k : Int) + 1 := ⟨(a - 1).toNat, by omega⟩
  obtain ⟨b, rfl⟩ : ∃ k : Nat, b = (k : Int) + 1 := ⟨(b - 1).toNat, by omega⟩
  rw [Finset.sum_eq_single a]
  · rw [Finset.sum_eq_single b]
    · rw [if_pos ⟨rfl, rfl⟩, mul_one, ← ENNReal.mul_inv (.inr (ENNReal.natCast_ne_top _)) (.inl (ENNReal.natCast_ne_top _)), one_div]
      norm_num
    · intro j _ hj
      rw [if_neg (by omega)]
    · intro h
      exact absurd (Finset.mem_range.2 (by omega)) h
  · intro j _ hj
    rw [Finset.sum_eq_zero fun i _ => if_neg (by omega), mul_zero]
  · intro h
    exact absurd (Finset.mem_range.2 (by omega)) h

/-! ## Choosing -/

theorem choose_small {l : List α} (hl : l.length < words) : (Rand.choose l).Small := by
  cases l with
  | nil => trivial
  | cons a l => exact ⟨hl, fun _ _ => trivial⟩

theorem sum_count [DecidableEq α] (b : α) (l : List α) (a : α) :
    ∑ h ∈ Finset.range l.length, (if l.getD h b = a then 1 else 0 : ENNReal) = l.count a := by
  induction l with
  | nil => simp
  | cons c l ih =>
    rw [List.length_cons, Finset.sum_range_succ', List.count_cons]
    simp only [List.getD_cons_succ, List.getD_cons_zero, beq_iff_eq]
    rw [ih]
    split <;> simp

/-- C126: `choose` takes each element with probability `1 / len` (an element that occurs several times as often as it occurs). -/
theorem C126_choose [DecidableEq α] {l : List α} (hl : l.length < words) (h0 : l ≠ []) (a : α) :
    iid uniform {t | Ran (Rand.choose l) t (some a)} = l.count a / l.length := by
  have : {t | Ran (Rand.choose l) t (some a)} = Outcome (Rand.choose l) {some a} := by
    ext t
    exact ⟨fun h => ⟨_, h, rfl⟩, fun ⟨c, h, hc⟩ => by rw [← (show c = some a from hc)]; exact h⟩
  rw [this, ran_prob (choose_small hl)]
  cases l with
  | nil => exact absurd rfl h0
  | cons b l =>
    show (Ask.ask .word l.length fun i => .done (some ((b :: l).getD i b))).law.toOuterMeasure {some a} = _
    rw [law_ask]
    simp only [law_done, Option.some.injEq]
    rw [← List.length_cons (a := b) (as := l), ENNReal.div_eq_inv_mul]
    congr 1
    exact sum_count b (b :: l) a

/-! ## Shuffling -/

theorem swap_eq {l : List α} {i j : Nat} (hi : i < l.length) (hj : j < l.length) : swap l i j = (l.set i l[j]).set j l[i] := by
  unfold swap
  rw [List.getElem?_eq_getElem hi, List.getElem?_eq_getElem hj]

theorem shuffleFrom_small {i : Nat} (hi : i + 1 < words) (l : List α) : (shuffleFrom i l).Small := by
  induction i generalizing l with
  | zero => trivial
  | succ i ih => exact ⟨hi, fun j _ => ih (by omega) _⟩

theorem shuffle_small {l : List α} (hl : l.length < words) : (shuffle l).Small := by
  cases l with
  | nil => trivial
  | cons a l => exact shuffleFrom_small hl _

theorem swap_drop {l : List α} {i j : Nat} (hi : i < l.length) (hj : j ≤ i) : (swap l i j).drop i = l[j] :: l.drop (i + 1) := by
  rw [swap_eq hi (by omega)]
  rw [List.drop_eq_getElem_cons (by rw [List.length_set, List.length_set]; exact hi)]
  congr 1
  · rw [List.getElem_set]
    split
    · subst_vars; rfl
    · rw [List.getElem_set_self]
  · rw [List.drop_set_of_lt (by omega), List.drop_set_of_lt (by omega)]

theorem law_shuffle [DecidableEq α] {i : Nat} {l : List α} (hi : i < l.length) (hn : l.Nodup) (l' : List α) :
    (shuffleFrom i l).law.toOuterMeasure {l'} = if l'.Perm l ∧ l'.drop (i + 1) = l.drop (i + 1) then (((i + 1)! : Nat) : ENNReal)⁻¹ else 0 := by
  induction i generalizing l with
  | zero =>
    rw [shuffleFrom, law_done]
    have : l = l' ↔ l'.Perm l ∧ l'.drop 1 = l.drop 1 := by
      constructor
      · rintro rfl
        exact ⟨.refl _, rfl⟩
      · rintro ⟨h1, h2⟩
        match l, l', hn, h1, h2 with
        | [], l', _, h1, _ => exact h1.eq_nil.symm
        | _ :: _, [], _, h1, _ => exact absurd h1.symm.eq_nil (by simp)
        | a :: l, b :: l', hn, h1, h2 =>
          obtain rfl : l' = l := h2
          have h3 : b ∈ a :: l' := h1.subset (List.mem_cons_self ..)
          have h4 : b ∉ l' := (List.nodup_cons.1 (h1.nodup_iff.2 hn)).1
          rw [(List.mem_cons.1 h3).resolve_right h4]
    simp only [this, Nat.zero_add, Nat.factorial_one, Nat.cast_one, inv_one]
  | succ i ih =>
    rw [shuffleFrom, law_ask]
    have hp : ∀ j ≤ i + 1, (swap l (i + 1) j).Perm l := fun j hj => by
      rw [swap_eq hi (by omega)]
      exact List.set_set_perm _ _
    have key : ∀ j ∈ Finset.range (i + 1 + 1), (shuffleFrom i (swap l (i + 1) j)).law.toOuterMeasure {l'} =
        if l'.Perm l ∧ l'.drop (i + 1) = l.getD j (l[i + 1]) :: l.drop (i + 1 + 1) then (((i + 1)! : Nat) : ENNReal)⁻¹ else 0 := by
      intro j hj
      have hj := Finset.mem_range.1 hj
      have hq := hp j (by omega)
      rw [ih (by rw [hq.length_eq]; omega) (hq.nodup_iff.2 hn), swap_drop hi (by omega), List.getD_eq_getElem _ _ (by omega)]
      have : l'.Perm (swap l (i + 1) j) ↔ l'.Perm l := ⟨fun h => h.trans hq, fun h => h.trans hq.symm⟩
      simp only [this]
    rw [Finset.sum_congr rfl key]
    by_cases h : l'.Perm l ∧ l'.drop (i + 1 + 1) = l.drop (i + 1 + 1)
    · obtain ⟨h1, h2⟩ := h
      have hl := h1.length_eq
      have hi' : i + 1 < l'.length := by omega
      obtain ⟨j, hj, he⟩ := List.mem_iff_getElem.1 (h1.subset (List.getElem_mem hi'))
      have hji : j ≤ i + 1 := by
        by_contra hc
        have e1 : l'[j]'(by omega) = l[j] := by
          have e := congrArg (fun r => r[j - (i + 1 + 1)]?) h2
          simp only [List.getElem?_drop] at e
          rw [show i + 1 + 1 + (j - (i + 1 + 1)) = j by omega, List.getElem?_eq_getElem (by omega), List.getElem?_eq_getElem hj] at e
          exact Option.some.inj e
        rw [he] at e1
        have := ((h1.nodup_iff.2 hn).getElem_inj_iff).1 e1
        omega
      have h3 : l'.drop (i + 1) = l.getD j l[i + 1] :: l.drop (i + 1 + 1) := by
        rw [List.drop_eq_getElem_cons hi', h2, List.getD_eq_getElem _ _ hj, he]
      rw [if_pos ⟨h1, h2⟩, Finset.sum_eq_single j]
      · rw [if_pos ⟨h1, h3⟩, Nat.factorial_succ (i + 1), Nat.cast_mul,
          ENNReal.mul_inv (.inr (ENNReal.natCast_ne_top _)) (.inl (ENNReal.natCast_ne_top _))]
      · intro k hk hkj
        have hk := Finset.mem_range.1 hk
        refine if_neg fun ⟨_, h3⟩ => hkj ?_
        rw [List.drop_eq_getElem_cons hi', List.getD_eq_getElem _ _ (by omega)] at h3
        have := (List.cons.inj h3).1
        rw [← he] at this
        exact ((hn.getElem_inj_iff).1 this).symm
      · intro hk
        exact absurd (Finset.mem_range.2 (by omega)) hk
    · rw [if_neg h, Finset.sum_eq_zero, mul_zero]
      intro j _
      refine if_neg fun ⟨h1, h2⟩ => h ⟨h1, ?_⟩
      have := congrArg (List.drop 1) h2
      rwa [List.drop_drop, List.drop_succ_cons, List.drop_zero] at this

/-- C126: `shuffle` gives each of the `n!` arrangements of `n` different elements with the same probability, and nothing else. -/
theorem C126_shuffle [DecidableEq α] {l : List α} (hl : l.length < words) (hn : l.Nodup) (l' : List α) :
    iid uniform {t | Ran (shuffle l) t l'} = if l'.Perm l then 1 / ((l.length ! : Nat) : ENNReal) else 0 := by
  have : {t | Ran (shuffle l) t l'} = Outcome (shuffle l) {l'} := by
    ext t
    exact ⟨fun h => ⟨_, h, rfl⟩, fun ⟨c, h, hc⟩ => by rw [← (show c = l' from hc)]; exact h⟩
  rw [this, ran_prob (shuffle_small hl), one_div]
  cases l with
  | nil =>
    show (Ask.done []).law.toOuterMeasure {l'} = _
    rw [law_done]
    have : ([] : List α) = l' ↔ l'.Perm [] := ⟨fun h => h ▸ .refl _, fun h => h.eq_nil.symm⟩
    simp only [this]
    simp
  | cons a l =>
    unfold shuffle
    rw [law_shuffle (by simp) hn]
    have : ∀ b : List α, b.Perm (a :: l) ∧ b.drop ((a :: l).length - 1 + 1) = (a :: l).drop ((a :: l).length - 1 + 1) ↔ b.Perm (a :: l) := by
      intro b
      refine ⟨And.left, fun h => ⟨h, ?_⟩⟩
      have := h.length_eq
      rw [List.length_cons] at this ⊢
      rw [List.drop_of_length_le (by omega), List.drop_of_length_le (by simp)]
    simp only [this]
    rfl

theorem swap_map (f : α → β) (l : List α) (i j : Nat) : swap (l.map f) i j = (swap l i j).map f := by
  unfold swap
  rw [List.getElem?_map, List.getElem?_map]
  cases l[i]? with
  | none => rfl
  | some a =>
    cases l[j]? with
    | none => rfl
    | some b =>
      show ((l.map f).set i (f b)).set j (f a) = ((l.set i b).set j a).map f
      rw [List.map_set, List.map_set]

theorem shuffleFrom_map (f : α → β) (i : Nat) {l r : List α} {t : Tape} (h : Ran (shuffleFrom i l) t r) :
    Ran (shuffleFrom i (l.map f)) t (r.map f) := by
  induction i generalizing l t with
  | zero =>
    cases h
    exact .done
  | succ i ih =>
    cases h with
    | ask h1 h2 => exact .ask h1 (by rw [swap_map]; exact ih h2)

/-- C126: `shuffle` only looks at the positions: equal elements are treated like different ones. -/
theorem C126_positions (f : α → β) {l r : List α} {t : Tape} (h : Ran (shuffle l) t r) : Ran (shuffle (l.map f)) t (r.map f) := by
  unfold shuffle
  rw [List.length_map]
  exact shuffleFrom_map f _ h

/-! ## The model of the other files -/

/-- The computation as the rest of the model writes it: each draw is the remainder of the next number. -/
def model : Ask α → Prog α
  | .done a => .done a
  | .ask _ n f => .read fun x => model (f (x % (n + 1)))

/-- All ranges have at most `N` numbers. -/
def Up (N : Nat) : Ask α → Prop
  | .done _ => True
  | .ask _ n f => n + 1 ≤ N ∧ ∀ h ≤ n, Up N (f h)

/-- Remainders for up to `N` are uniform. -/
def EvenTo (N : Nat) (ν : PMF ℕ) : Prop := ∀ k, 0 < k → k ≤ N → ∀ j < k, ν.toOuterMeasure {n | n % k = j} = (k : ENNReal)⁻¹

theorem model_law {N : Nat} {ν : PMF ℕ} (hν : EvenTo N ν) {T : Ask α} (hT : Up N T) (A : Set α) :
    ((model T).law ν).toOuterMeasure A = T.law.toOuterMeasure A := by
  induction T with
  | done a => rfl
  | ask k n f ih =>
    rw [law_ask]
    show (ν.bind fun x => (model (f (x % (n + 1)))).law ν).toOuterMeasure A = _
    rw [PMF.toOuterMeasure_bind_apply, Ch.tsum_mod ν (Nat.succ_pos n) fun j => ((model (f j)).law ν).toOuterMeasure A, Finset.mul_sum]
    refine Finset.sum_congr rfl fun j hj => ?_
    have hj := Finset.mem_range.1 hj
    rw [hν _ (Nat.succ_pos n) hT.1 j hj, ih j (hT.2 j (by omega))]

theorem small_of_up {N : Nat} (hN : N < words) {T : Ask α} (hT : Up N T) : T.Small := by
  induction T with
  | done a => trivial
  | ask k n f ih => exact ⟨by have := hT.1; omega, fun h hh => ih h (hT.2 h hh)⟩

/-- The model of the other files throws the dice of `dice`. -/
theorem C126_roll (t : Tape) : (do let a ← M.die; let b ← M.die; pure (a, b) : M (Int × Int)) t = .ok ((model dice).run t) := rfl

/-- The model of the other files chooses like `choose`. -/
theorem C126_pick (l : List α) (t : Tape) : M.choose l t = .ok ((model (Rand.choose l)).run t) := by
  cases l <;> rfl

/-- C126: a computation that takes remainders of numbers with uniform remainders has the same distribution as the one that
draws its numbers with `rand`. -/
theorem C126_model {N : Nat} (hN : N < words) {ν : PMF ℕ} (hν : EvenTo N ν) {m : M α} {T : Ask (Res α)} (hT : Up N T)
    (h : Rep m (model T)) (A : Set (Res α)) : iid uniform {t | ∃ r, Ran T t r ∧ r ∈ A} = iid ν {t | value m t ∈ A} := by
  show iid uniform (Outcome T A) = _
  rw [ran_prob (small_of_up hN hT), (show Law ν m ((model T).law ν) from ⟨_, h, rfl⟩).prob, model_law hν hT]

/-- The computation draws from ranges of at most `N` numbers. -/
def Asks (N : Nat) (m : M α) : Prop := ∃ T : Ask (Res α), Up N T ∧ Rep m (model T)

/-- One computation after the other, unless the first one panics. -/
def andThen (g : α → Ask (Res β)) : Ask (Res α) → Ask (Res β)
  | .done (.error e) => .done (.error e)
  | .done (.ok a) => g a
  | .ask k n f => .ask k n fun h => andThen g (f h)

theorem up_andThen {N : Nat} {g : α → Ask (Res β)} (hg : ∀ a, Up N (g a)) {T : Ask (Res α)} (hT : Up N T) : Up N (andThen g T) := by
  induction T with
  | done r =>
    cases r with
    | error e => trivial
    | ok a => exact hg a
  | ask k n f ih => exact ⟨hT.1, fun h hh => ih h (hT.2 h hh)⟩

theorem model_andThen (g : α → Ask (Res β)) (T : Ask (Res α)) : model (andThen g T) = (model T).andThen fun a => model (g a) := by
  induction T with
  | done r =>
    cases r with
    | error e => rfl
    | ok a => rfl
  | ask k n f ih =>
    show Prog.read (fun x => model (andThen g (f (x % (n + 1))))) = Prog.read _
    congr 1
    funext x
    exact ih _

variable {N : Nat}

theorem Asks.bind {m : M α} {f : α → M β} (h : Asks N m) (h' : ∀ a, Asks N (f a)) : Asks N (m >>= f) := by
  obtain ⟨T, hT, hR⟩ := h
  choose g hg hR' using h'
  exact ⟨andThen g T, up_andThen hg hT, by rw [model_andThen]; exact rep_bind hR hR'⟩

theorem asks_pure (a : α) : Asks N (pure a : M α) := ⟨.done (.ok a), trivial, fun _ => rfl⟩
theorem asks_lift (r : Res α) : Asks N (M.lift r) := ⟨.done r, trivial, fun t => by cases r <;> rfl⟩
theorem asks_fail (e : Panic) : Asks N (M.fail e : M α) := ⟨.done (.error e), trivial, fun _ => rfl⟩

theorem asks_choose {l : List α} (hl : l.length ≤ N) : Asks N (M.choose l) := by
  cases l with
  | nil => exact asks_pure _
  | cons a l => exact ⟨.ask .word l.length fun i => .done (.ok (some ((a :: l).getD i a))), ⟨hl, fun _ _ => trivial⟩, fun _ => rfl⟩

/-! ## A game of random players -/

theorem asks_solo {G : Game} (hr : ∀ s, Asks N (randomAction (G := G) s)) (hs : ∀ s, Asks N (G.skip s)) (ha : ∀ s a, Asks N (G.apply s a))
    (limit f k : Nat) (s : G.S) (steps : List (Step G)) : Asks N (solo randomAction randomAction limit f k s steps) := by
  induction f generalizing k s steps with
  | zero => exact asks_fail _
  | succ f ih =>
    unfold solo
    refine Asks.bind ?_ fun a => Asks.bind ?_ fun x => ?_
    · split
      · exact hr _
      · exact hr _
    · unfold turn
      split
      · exact (hs _).bind fun _ => asks_pure _
      · exact (asks_lift _).bind fun _ => (asks_lift _).bind fun _ => (ha _ _).bind fun _ => asks_pure _
    · show Asks N (ite _ _ _)
      split
      · exact asks_pure _
      · exact ih ..

theorem choose_le {l : List α} {g : Option α → β} (hl : l.length ≤ N) : Asks N (M.lift (.ok l) >>= fun ms => M.choose ms >>= fun a => pure (g a)) :=
  (asks_choose hl).bind fun _ => asks_pure _

theorem asks_random (pf : Profile) (s : TTT.State) : Asks 9 (randomAction (G := TTT.game pf) s) :=
  choose_le ((Mm.moves_length s).le.trans (Mm.empties_le _))

/-- C126: with the numbers drawn by `rand` from uniformly distributed words, a game of two random players of TicTacToe has
the chances of C124. -/
theorem C126_game (pf : Profile) {p1 p2 : Player Fl} (h1 : p1.agent = .random) (h2 : p2.agent = .random) (cfg : Config) (i : Nat) :
    ∃ T : Ask (Res (List (Step (TTT.game pf)))), Up 9 T ∧ Rep (alone (G := TTT.game pf) p1 p2 cfg 400 400 9 i) (model T) ∧
      ∀ w, iid uniform {t | ∃ l, kind l = w ∧ Ran T t (.ok l)} = Ch.share i w := by
  have ha : Asks 9 (alone (G := TTT.game pf) p1 p2 cfg 400 400 9 i) := by
    have e1 : ∀ p : Player Fl, p.agent = .random → chooser (G := TTT.game pf) p cfg = randomAction := by
      intro p hp
      funext s
      unfold chooser
      rw [hp]
    have e2 : alone (G := TTT.game pf) p1 p2 cfg 400 400 9 i = solo (G := TTT.game pf) randomAction randomAction 400 9 0
        (⟨if i < 200 then -1 else 1, TTT.new.board, i⟩ : TTT.State) [] := by
      unfold alone soloGame
      rw [e1 p1 h1, e1 p2 h2]
      funext t
      exact Ch.bind_of (V.ttt_init pf 400 i t)
    rw [e2]
    exact asks_solo (asks_random pf) (fun _ => asks_lift _) (fun _ _ => asks_lift _) ..
  obtain ⟨T, hT, hR⟩ := ha
  refine ⟨T, hT, hR, fun w => ?_⟩
  have e := C126_model (by decide) (N := 9) (ν := _) Ch.even_uniform hT hR {r | ∃ l, kind l = w ∧ r = .ok l}
  rw [← Ch.C124_game Ch.even_uniform pf h1 h2 cfg i w]
  refine Eq.trans (congrArg _ ?_) e
  ext t
  exact ⟨fun ⟨l, h3, h4⟩ => ⟨_, h4, l, h3, rfl⟩, fun ⟨r, h4, l, h3, h5⟩ => ⟨l, h3, by rw [← (show r = .ok l from h5)]; exact h4⟩⟩

/-! ## Examples -/

/-- A word that is rejected when a die is thrown: the words are not shared out evenly by a mere multiplication. -/
example : accept .small 6 0 = some 0 ∧ accept .small 6 715827881 = some 0 ∧ accept .small 6 715827882 = none ∧ accept .small 6 715827883 = some 1 ∧
    accept .small 6 (words - 1) = some 5 ∧ accept .word 6 536870912 = none := by
  decide

/-- Remainders of uniform words would not be fair: each of the remainders 0 to 3 comes from one word more than 4 and 5. -/
example : words % 6 = 4 := by decide

/-- Three elements in a given order. -/
example : iid uniform {t | Ran (shuffle ["a", "b", "c"]) t ["c", "a", "b"]} = 1 / 6 := by
  rw [C126_shuffle (by decide) (by decide), if_pos (by decide)]
  norm_num [Nat.factorial]

/-- Double six. -/
example : iid uniform {t | Ran dice t (6, 6)} = 1 / 36 := C126_dice (by decide) (by decide)

end DieE.Props.Fr
