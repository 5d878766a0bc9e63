import Verif.Joint
import Verif.Versus.Short
import Verif.Versus.Progress

/-!
# A match consists of independent games

Each game of a match, played alone, and the match as a computation whose parts belong to these games.
-/

namespace DieE.Versus
open DieE DieE.Mcts DieE.Prob DieE.Props.Ro
variable {G : Game} {Fl : Floats}

theorem bind_assoc' {α β γ : Type} (x : M α) (f : α → M β) (g : β → M γ) : (x >>= f) >>= g = x >>= fun a => f a >>= g := by
  funext t
  show (match (match x t with
    | .error e => .error e
    | .ok (a, t') => f a t' : Res (β × Tape)) with
    | .error e => .error e
    | .ok (b, t') => g b t' : Res (γ × Tape)) = match x t with
    | .error e => .error e
    | .ok (a, t') => match f a t' with
      | .error e => .error e
      | .ok (b, t') => g b t'
  cases x t <;> rfl

theorem pure_bind' {α β : Type} (a : α) (f : α → M β) : (pure a : M α) >>= f = f a := rfl

/-- One turn of a game played alone: the state after the action, and the result if the game is over. -/
def turn (limit round : Nat) (a : G.Mv) (s : G.S) : M (G.S × Option Int) :=
  if a = G.emptyMove then do
    let s' ← G.skip s
    pure (s', none)
  else do
    let ms ← M.lift (G.moves s)
    M.lift (assert (decide (a ∈ ms)))
    let s' ← G.apply s a
    pure (s', match G.winner s' with
      | some w => some w
      | none => if round ≥ limit then some 0 else none)

/-- A game played alone, from round `k` on: player -1 chooses with `f1`, the other player with `f2`.  The steps so far are
`steps`, those of the whole game are returned. -/
def solo (f1 f2 : G.S → M G.Mv) (limit : Nat) : Nat → Nat → G.S → List (Step G) → M (List (Step G))
  | 0, _, _, _ => M.fail .fuel
  | f + 1, k, s, steps => do
    let a ← (if G.player s = -1 then f1 s else f2 s)
    let x ← turn limit (k + 1) a s
    let steps := steps ++ [⟨decide (G.player s = -1), s, a, x.1⟩]
    if x.2.isSome then pure steps else solo f1 f2 limit f (k + 1) x.1 steps

/-- The rest of the game after the choice of an action. -/
def soloTurn (f1 f2 : G.S → M G.Mv) (limit f k : Nat) (steps : List (Step G)) (x : Bool × G.Mv × G.S) : M (List (Step G)) := do
  let y ← turn limit (k + 1) x.2.1 x.2.2
  let steps := steps ++ [⟨x.1, x.2.2, x.2.1, y.1⟩]
  if y.2.isSome then pure steps else solo f1 f2 limit f (k + 1) y.1 steps

/-- Game `i` of a match of `n` games, played alone. -/
def soloGame (f1 f2 : G.S → M G.Mv) (n limit f i : Nat) : M (List (Step G)) := do
  let s ← initState G n i
  solo f1 f2 limit f 0 s []

/-- What `playAction` does with the result of the turn. -/
def upd (a1 a2 : Agent) (first : Bool) (a : G.Mv) (s : G.S) (r : Rec G) (i : Nat) (m : Match G) (E : List Nat) (x : G.S × Option Int) :
    Match G × List Nat :=
  match x.2 with
  | none => (m.put i x.1 r ⟨first, s, a, x.1⟩, E)
  | some w =>
    if w = -1 then ({ m.put i x.1 { r with winner := a1 } ⟨first, s, a, x.1⟩ with wins1 := m.wins1 + 1 }, E ++ [i])
    else if w = -(-1) then ({ m.put i x.1 { r with winner := a2 } ⟨first, s, a, x.1⟩ with wins2 := m.wins2 + 1 }, E ++ [i])
    else (m.put i x.1 { r with winner := .none } ⟨first, s, a, x.1⟩, E ++ [i])

theorem upd_spec (a1 a2 : Agent) (first : Bool) (a : G.Mv) (s : G.S) (r : Rec G) (i : Nat) (m : Match G) (E : List Nat)
    (x : G.S × Option Int) :
    (∀ j, (upd a1 a2 first a s r i m E x).1.steps j = if j = i then m.steps i ++ [⟨first, s, a, x.1⟩] else m.steps j) ∧
    (∃ r', ∀ j, (upd a1 a2 first a s r i m E x).1.games j = if j = i then some (x.1, r') else m.games j) ∧
    (upd a1 a2 first a s r i m E x).2 = if x.2.isSome then E ++ [i] else E := by
  obtain ⟨s', o⟩ := x
  cases o with
  | none => exact ⟨fun _ => rfl, ⟨_, fun _ => rfl⟩, rfl⟩
  | some w =>
    unfold upd
    simp only
    split
    · exact ⟨fun _ => rfl, ⟨_, fun _ => rfl⟩, rfl⟩
    · split
      · exact ⟨fun _ => rfl, ⟨_, fun _ => rfl⟩, rfl⟩
      · exact ⟨fun _ => rfl, ⟨_, fun _ => rfl⟩, rfl⟩

theorem playAction_turn (a1 a2 : Agent) (limit round : Nat) (first : Bool) (a : G.Mv) {g s : G.S} {r : Rec G} {m : Match G}
    (E : List Nat) (hg : m.games (G.id g) = some (s, r)) :
    playAction a1 a2 limit round first a g m E = turn limit round a s >>= fun x => pure (upd a1 a2 first a s r (G.id g) m E x) := by
  have e : playAction a1 a2 limit round first a g m E = if a = G.emptyMove then (do
        let s' ← G.skip s
        pure (upd a1 a2 first a s r (G.id g) m E (s', none)))
      else (do
        let ms ← M.lift (G.moves s)
        M.lift (assert (decide (a ∈ ms)))
        let s' ← G.apply s a
        pure (upd a1 a2 first a s r (G.id g) m E (s', match G.winner s' with
          | some w => some w
          | none => if round ≥ limit then some 0 else none))) := by
    unfold playAction
    dsimp only
    rw [hg]
    show (if a = G.emptyMove then _ else _) = _
    split
    · rfl
    · congr 1
      funext ms
      congr 1
      funext _
      congr 1
      funext s'
      cases G.winner s' with
      | none =>
        by_cases hr : round ≥ limit
        · simp only [if_pos hr]
          rfl
        · simp only [if_neg hr]
          rfl
      | some w =>
        unfold upd
        simp only
        split
        · rfl
        · split <;> rfl
  rw [e]
  unfold turn
  split
  · rw [bind_assoc']; rfl
  · rw [bind_assoc']
    congr 1
    funext ms
    rw [bind_assoc']
    congr 1
    funext _
    rw [bind_assoc']
    rfl

/-! ## Finitely many reads -/

theorem turn_short (hd : Shorts G) (limit round : Nat) (a : G.Mv) (s : G.S) : Short (turn limit round a s) := by
  unfold turn
  split
  · exact (hd.skip _).bind fun _ => short_pure _
  · exact (short_lift _).bind fun _ => (short_lift _).bind fun _ => (hd.apply _ _).bind fun _ => short_pure _

theorem solo_short (hd : Shorts G) {f1 f2 : G.S → M G.Mv} (h1 : ∀ s, Short (f1 s)) (h2 : ∀ s, Short (f2 s)) (limit f k : Nat)
    (s : G.S) (steps : List (Step G)) : Short (solo f1 f2 limit f k s steps) := by
  induction f generalizing k s steps with
  | zero => exact short_fail _
  | succ f ih =>
    unfold solo
    refine Short.bind ?_ fun a => (turn_short hd ..).bind fun x => ?_
    · split
      · exact h1 _
      · exact h2 _
    · show Short (ite _ _ _)
      split
      · exact short_pure _
      · exact ih ..

theorem soloEnd_short (hd : Shorts G) {f1 f2 : G.S → M G.Mv} (h1 : ∀ s, Short (f1 s)) (h2 : ∀ s, Short (f2 s)) (limit f k : Nat)
    (s : G.S) (b : Bool) (steps : List (Step G)) : Short (if b then pure steps else solo f1 f2 limit f k s steps) := by
  split
  · exact short_pure _
  · exact solo_short hd h1 h2 ..

theorem soloTurn_short (hd : Shorts G) {f1 f2 : G.S → M G.Mv} (h1 : ∀ s, Short (f1 s)) (h2 : ∀ s, Short (f2 s)) (limit f k : Nat)
    (steps : List (Step G)) (x : Bool × G.Mv × G.S) : Short (soloTurn f1 f2 limit f k steps x) :=
  (turn_short hd ..).bind fun _ => soloEnd_short hd h1 h2 ..

/-! ## What is left of each game -/

/-- Between two rounds. -/
def left (f1 f2 : G.S → M G.Mv) (limit f k : Nat) (m : Match G) (i : Nat) : M (List (Step G)) :=
  match m.games i with
  | none => pure (m.steps i)
  | some e => solo f1 f2 limit f k e.1 (m.steps i)

/-- While the actions are chosen: those in `L` have been chosen. -/
def leftChoice (f1 f2 : G.S → M G.Mv) (limit f k : Nat) (m : Match G) (L : List (Bool × G.Mv × G.S)) (i : Nat) : M (List (Step G)) :=
  match L.find? fun x => decide (G.id x.2.2 = i) with
  | some x => soloTurn f1 f2 limit f k (m.steps i) x
  | none => left f1 f2 limit (f + 1) k m i

/-- While the actions are played: those in `L` are still to be played, the games in `E` are over. -/
def leftTurn (f1 f2 : G.S → M G.Mv) (limit f k : Nat) (L : List (Bool × G.Mv × G.S)) (m : Match G) (E : List Nat) (i : Nat) :
    M (List (Step G)) :=
  match L.find? fun x => decide (G.id x.2.2 = i) with
  | some x => soloTurn f1 f2 limit f k (m.steps i) x
  | none => if i ∈ E then pure (m.steps i) else left f1 f2 limit f (k + 1) m i

theorem left_short (hd : Shorts G) {f1 f2 : G.S → M G.Mv} (h1 : ∀ s, Short (f1 s)) (h2 : ∀ s, Short (f2 s)) (limit f k : Nat)
    (m : Match G) (i : Nat) : Short (left f1 f2 limit f k m i) := by
  unfold left
  split
  · exact short_pure _
  · exact solo_short hd h1 h2 ..

theorem leftChoice_short (hd : Shorts G) {f1 f2 : G.S → M G.Mv} (h1 : ∀ s, Short (f1 s)) (h2 : ∀ s, Short (f2 s)) (limit f k : Nat)
    (m : Match G) (L : List (Bool × G.Mv × G.S)) (i : Nat) : Short (leftChoice f1 f2 limit f k m L i) := by
  unfold leftChoice
  split
  · exact soloTurn_short hd h1 h2 ..
  · exact left_short hd h1 h2 ..

theorem leftTurn_short (hd : Shorts G) {f1 f2 : G.S → M G.Mv} (h1 : ∀ s, Short (f1 s)) (h2 : ∀ s, Short (f2 s)) (limit f k : Nat)
    (L : List (Bool × G.Mv × G.S)) (m : Match G) (E : List Nat) (i : Nat) : Short (leftTurn f1 f2 limit f k L m E i) := by
  unfold leftTurn
  split
  · exact soloTurn_short hd h1 h2 ..
  · split
    · exact short_pure _
    · exact left_short hd h1 h2 ..

theorem find_id_none {L : List (Bool × G.Mv × G.S)} {i : Nat} (h : i ∉ L.map fun x => G.id x.2.2) :
    L.find? (fun x => decide (G.id x.2.2 = i)) = none := by
  rw [List.find?_eq_none]
  intro x hx hc
  exact h (List.mem_map.2 ⟨x, hx, of_decide_eq_true hc⟩)

/-! ## The choice of the actions -/

theorem choice_ind (hd : Shorts G) {f1 f2 : G.S → M G.Mv} (h1 : ∀ s, Short (f1 s)) (h2 : ∀ s, Short (f2 s)) {n limit f k : Nat}
    {m : Match G} {first : Bool} {c : G.S → M G.Mv} (ss : List G.S)
    (hs : ∀ s ∈ ss, G.id s < n ∧ (∃ r, m.games (G.id s) = some (s, r)) ∧ decide (G.player s = -1) = first)
    (hc : c = if first then f1 else f2) (L : List (Bool × G.Mv × G.S)) (hn : (L.map (fun x => G.id x.2.2) ++ ss.map G.id).Nodup)
    {T : List G.Mv → M (List (List (Step G)))} (hT : ∀ as, Short (T as))
    (h : ∀ as : List G.Mv, as.length = ss.length →
      Ind n (leftChoice f1 f2 limit f k m (L ++ (as.zip ss).map fun x => (first, x.1, x.2))) (T as)) :
    Ind n (leftChoice f1 f2 limit f k m L) (eachGame c ss >>= T) := by
  induction ss generalizing L T with
  | nil =>
    have := h [] rfl
    rw [List.zip_nil_left, List.map_nil, List.append_nil] at this
    exact this
  | cons s ss ih =>
    obtain ⟨hi, ⟨r, hr⟩, hp⟩ := hs s (List.mem_cons_self ..)
    have hcs : ∀ s, Short (c s) := by
      intro s
      rw [hc]
      split
      · exact h1 s
      · exact h2 s
    have e : eachGame c (s :: ss) >>= T = c s >>= fun a => eachGame c ss >>= fun as => T (a :: as) := by
      show (c s >>= fun a => eachGame c ss >>= fun as => pure (a :: as)) >>= T = _
      rw [bind_assoc']
      congr 1
      funext a
      rw [bind_assoc']
      rfl
    have hL : G.id s ∉ L.map fun x => G.id x.2.2 := by
      intro hc
      exact (List.nodup_append.1 hn).2.2 _ hc _ (List.mem_cons_self ..) rfl
    have hcc : c s = if G.player s = -1 then f1 s else f2 s := by
      rw [hc, ← hp]
      by_cases hx : G.player s = -1 <;> simp [hx]
    rw [e]
    refine Ind.seg hi (k := fun a => soloTurn f1 f2 limit f k (m.steps (G.id s)) (first, a, s)) ?_ (hcs s)
      (fun a => soloTurn_short hd h1 h2 ..) (fun j => leftChoice_short hd h1 h2 ..)
      (fun a => (eachGame_short hcs ss).bind fun as => hT _) ?_
    · unfold leftChoice left
      rw [find_id_none hL, hr]
      simp only
      rw [solo, hcc, hp]
      rfl
    · intro a t t' ha
      have hu : Function.update (leftChoice f1 f2 limit f k m L) (G.id s) (soloTurn f1 f2 limit f k (m.steps (G.id s)) (first, a, s)) =
          leftChoice f1 f2 limit f k m (L ++ [(first, a, s)]) := by
        funext j
        by_cases hj : j = G.id s
        · subst hj
          rw [Function.update_self]
          unfold leftChoice
          rw [List.find?_append, find_id_none hL]
          simp
        · rw [Function.update_of_ne hj]
          unfold leftChoice
          rw [List.find?_append]
          cases L.find? fun x => decide (G.id x.2.2 = j) with
          | some x => rfl
          | none => simp [Ne.symm hj]
      rw [hu]
      refine ih (fun s' hs' => hs s' (List.mem_cons_of_mem _ hs')) (L ++ [(first, a, s)]) ?_ (fun as => hT _) ?_
      · simpa using hn
      · intro as has
        have := h (a :: as) (by simp [has])
        rw [List.zip_cons_cons, List.map_cons] at this
        rw [List.append_assoc]
        exact this

/-! ## The turns -/

/-- The claim about the rest of the loop. -/
def Rest (f1 f2 : G.S → M G.Mv) (a1 a2 : Agent) (acts1 acts2 : Acts G) (n limit : Nat) (order : Nat → List Nat → List Nat) (f k : Nat)
    (m : Match G) : Prop :=
  Ind n (left f1 f2 limit f k m) (playLoop a1 a2 acts1 acts2 n limit order f k m >>= fun m' => pure ((List.range n).map m'.steps))

/-- No condition on the actions. -/
def Any (_ : G.S) (_ : G.Mv) : Prop := True

theorem turns_ind (hid : Ids G) (hd : Shorts G) {f1 f2 : G.S → M G.Mv} (h1 : ∀ s, Short (f1 s)) (h2 : ∀ s, Short (f2 s)) {n limit f k : Nat}
    {a1 a2 : Agent} {init : Nat → G.S} {D : List Nat} {T : Match G → M (List (List (Step G)))} (hT : ∀ m, Short (T m))
    (h : ∀ m E, Inv (fun _ => True) a1 a2 Any Any n limit init (k + 1) (D ++ E) m → Ind n (left f1 f2 limit f (k + 1) m) (T m))
    (L : List (Bool × G.Mv × G.S)) {m : Match G} {E : List Nat} (hm : Mid (fun _ => True) a1 a2 Any Any n limit init k D L m E) :
    Ind n (leftTurn f1 f2 limit f k L m E) (playActions a1 a2 limit (k + 1) L m E >>= fun r => M.lift (removeGames r.2 r.1) >>= T) := by
  induction L generalizing m E with
  | nil =>
    obtain ⟨m', h3, h4⟩ := hm.inv
    obtain ⟨m'', h5, h6, -, -, h7, -⟩ := removeGames_spec E (List.nodup_append.1 hm.nodup).2.1 hm.ended
    rw [h3] at h5
    obtain rfl := Except.ok.inj h5
    show Ind n _ (M.lift (removeGames E m) >>= T)
    rw [h3]
    refine (h m' E h4).congr (fun i _ => ?_) fun i => leftTurn_short hd h1 h2 ..
    show (if i ∈ E then _ else _) = _
    unfold left
    rw [h7 i, h6]
    by_cases hi : i ∈ E
    · rw [if_pos hi, if_pos hi]
    · rw [if_neg hi, if_neg hi]
  | cons x L ih =>
    obtain ⟨first, a, g⟩ := x
    obtain ⟨h3, h4, -⟩ := hm.todo (first, a, g) (List.mem_cons_self ..)
    have hi : G.id g < n := by
      by_contra hc
      have := hm.outside (G.id g) (by omega)
      rw [h3.entry] at this
      cases this
    have hE : G.id g ∉ E := fun he => not_going_ends h3.going (hm.done _ (List.mem_append_right _ he)).1.2
    have hL : G.id g ∉ L.map fun x => G.id x.2.2 := (List.nodup_cons.1 hm.distinct).1
    have e : (playActions a1 a2 limit (k + 1) ((first, a, g) :: L) m E >>= fun r => M.lift (removeGames r.2 r.1) >>= T) =
        turn limit (k + 1) a g >>= fun x =>
          (playActions a1 a2 limit (k + 1) L (upd a1 a2 first a g (Rec.new (G.id g) a1 a2 (init (G.id g))) (G.id g) m E x).1
            (upd a1 a2 first a g (Rec.new (G.id g) a1 a2 (init (G.id g))) (G.id g) m E x).2 >>= fun r =>
              M.lift (removeGames r.2 r.1) >>= T) := by
      show (playAction a1 a2 limit (k + 1) first a g m E >>= fun p => playActions a1 a2 limit (k + 1) L p.1 p.2) >>= _ = _
      rw [playAction_turn a1 a2 limit (k + 1) first a E h3.entry, bind_assoc', bind_assoc']
      rfl
    rw [e]
    refine Ind.seg hi (k := fun y => if y.2.isSome then pure (m.steps (G.id g) ++ [⟨first, g, a, y.1⟩])
        else solo f1 f2 limit f (k + 1) y.1 (m.steps (G.id g) ++ [⟨first, g, a, y.1⟩])) ?_ (turn_short hd ..)
      (fun y => soloEnd_short hd h1 h2 ..) (fun j => leftTurn_short hd h1 h2 ..)
      (fun y => (playActions_short hd ..).bind fun r => (short_lift _).bind fun m => hT m) ?_
    · unfold leftTurn
      rw [List.find?_cons_of_pos (by simp)]
      rfl
    · intro y t t' ht
      have hpa : playAction a1 a2 limit (k + 1) first a g m E t =
          .ok (upd a1 a2 first a g (Rec.new (G.id g) a1 a2 (init (G.id g))) (G.id g) m E y, t') := by
        rw [playAction_turn a1 a2 limit (k + 1) first a E h3.entry]
        exact M.bind_ok.2 ⟨y, t', ht, rfl⟩
      have hm' : Mid (fun _ => True) a1 a2 Any Any n limit init k D L
          (upd a1 a2 first a g (Rec.new (G.id g) a1 a2 (init (G.id g))) (G.id g) m E y).1
          (upd a1 a2 first a g (Rec.new (G.id g) a1 a2 (init (G.id g))) (G.id g) m E y).2 := playAction_mid hid ⟨fun _ _ _ _ _ _ => trivial, fun _ _ _ _ _ _ _ _ _ => trivial⟩ hm hpa
      obtain ⟨u1, ⟨r', u2⟩, u3⟩ := upd_spec a1 a2 first a g (Rec.new (G.id g) a1 a2 (init (G.id g))) (G.id g) m E y
      generalize upd a1 a2 first a g (Rec.new (G.id g) a1 a2 (init (G.id g))) (G.id g) m E y = U at hm' u1 u2 u3 ⊢
      refine (ih hm').congr (fun j _ => ?_) ?_
      · by_cases hj : j = G.id g
        · subst hj
          rw [Function.update_self]
          unfold leftTurn left
          rw [find_id_none hL, u1, u2, u3, if_pos rfl, if_pos rfl]
          simp only
          cases y.2.isSome with
          | true => simp
          | false => simp [hE]
        · rw [Function.update_of_ne hj]
          unfold leftTurn left
          rw [u1, u2, u3, if_neg hj, if_neg hj, List.find?_cons_of_neg (by simpa using Ne.symm hj)]
          cases y.2.isSome with
          | true => simp [hj]
          | false => rfl
      · intro j
        by_cases hj : j = G.id g
        · subst hj
          rw [Function.update_self]
          exact soloEnd_short hd h1 h2 ..
        · rw [Function.update_of_ne hj]
          exact leftTurn_short hd h1 h2 ..

/-! ## The loop -/

theorem forall₂_any {l : List G.S} {as : List G.Mv} (h : as.length = l.length) : List.Forall₂ Any l as := by
  induction l generalizing as with
  | nil => rw [List.length_eq_zero_iff.1 h]; exact .nil
  | cons s l ih =>
    cases as with
    | nil => cases h
    | cons a as => exact .cons trivial (ih (by simpa using h))

theorem loop_ind (hid : Ids G) (hd : Shorts G) {f1 f2 : G.S → M G.Mv} (h1 : ∀ s, Short (f1 s)) (h2 : ∀ s, Short (f2 s)) {n limit : Nat}
    {a1 a2 : Agent} {init : Nat → G.S} {order : Nat → List Nat → List Nat} (ho : ∀ k l, (order k l).Perm l) (f : Nat) {k : Nat}
    {D : List Nat} {m : Match G} (hm : Inv (fun _ => True) a1 a2 Any Any n limit init k D m) :
    Ind n (left f1 f2 limit f k m) (playLoop a1 a2 (fun _ => eachGame f1) (fun _ => eachGame f2) n limit order f k m >>=
      fun m' => pure ((List.range n).map m'.steps)) := by
  induction f generalizing k D m with
  | zero =>
    unfold playLoop
    by_cases he : (m.keys n).isEmpty
    · rw [if_pos he]
      refine Ind.done n m.steps (fun i => left_short hd h1 h2 ..) fun i hi => ?_
      unfold left
      cases hg : m.games i with
      | none => rfl
      | some e =>
        have : i ∈ m.keys n := List.mem_filter.2 ⟨List.mem_range.2 hi, by rw [hg]; rfl⟩
        rw [List.isEmpty_iff.1 he] at this
        cases this
    · rw [if_neg he]
      obtain ⟨i, hi⟩ := List.exists_mem_of_ne_nil _ (fun h => he (List.isEmpty_iff.2 h))
      obtain ⟨hi1, hi2⟩ := List.mem_filter.1 hi
      refine Ind.fail (i := i) (e := .fuel) (fun i => left_short hd h1 h2 ..) (List.mem_range.1 hi1) ?_ .fuel
      unfold left
      cases hg : m.games i with
      | none => rw [hg] at hi2; cases hi2
      | some e => rfl
  | succ f ih =>
    unfold playLoop
    by_cases he : (m.keys n).isEmpty
    · rw [if_pos he]
      refine Ind.done n m.steps (fun i => left_short hd h1 h2 ..) fun i hi => ?_
      unfold left
      cases hg : m.games i with
      | none => rfl
      | some e =>
        have : i ∈ m.keys n := List.mem_filter.2 ⟨List.mem_range.2 hi, by rw [hg]; rfl⟩
        rw [List.isEmpty_iff.1 he] at this
        cases this
    · rw [if_neg he]
      obtain ⟨p1, p2⟩ := hm.pool (ho k (m.keys n))
      simp only
      rw [playRound_eq, bind_assoc', bind_assoc', show left f1 f2 limit (f + 1) k m = leftChoice f1 f2 limit f k m [] from rfl]
      have hlt : ∀ s ∈ pool m (order k (m.keys n)), G.id s < n := by
        intro s hs
        by_contra hc
        have := hm.outside (G.id s) (by omega)
        rw [(p2 s hs).entry] at this
        cases this
      have hnd : ((pool m (order k (m.keys n))).map G.id).Nodup := by
        rw [p1]
        exact (ho k (m.keys n)).nodup_iff.2 (List.Nodup.filter _ List.nodup_range)
      have hT : ∀ m', Short (playLoop a1 a2 (fun _ => eachGame f1) (fun _ => eachGame f2) n limit order f (k + 1) m' >>=
          fun m' => (pure ((List.range n).map m'.steps) : M (List (List (Step G))))) := fun m' =>
        (playLoop_like hd a1 a2 (fun _ ss => (eachGame_short h1 ss).like) (fun _ ss => (eachGame_short h2 ss).like) n limit order f
          (k + 1) m').short.1.bind fun _ => short_pure _
      refine choice_ind hd h1 h2 (first := true) _ (fun s hs => ?_) rfl [] ?_ (fun as => ?_) fun as1 has1 => ?_
      · obtain ⟨hs1, hs2⟩ := List.mem_filter.1 hs
        exact ⟨hlt s hs1, ⟨_, (p2 s hs1).entry⟩, hs2⟩
      · simp only [List.map_nil, List.nil_append]
        exact (List.filter_sublist.map G.id).nodup hnd
      · refine Short.bind (Short.bind (eachGame_short h2 _) fun _ => (playActions_short hd ..).bind fun _ => short_lift _) fun m' => hT m'
      · rw [bind_assoc']
        refine choice_ind hd h1 h2 (first := false) _ (fun s hs => ?_) rfl _ ?_ (fun as => ?_) fun as2 has2 => ?_
        · obtain ⟨hs1, hs2⟩ := List.mem_filter.1 hs
          exact ⟨hlt s hs1, ⟨_, (p2 s hs1).entry⟩, by simpa using hs2⟩
        · simp only [List.nil_append, List.map_map]
          have z := (zip_forall₂ (forall₂_any has1)).1
          rw [show ((fun x : Bool × G.Mv × G.S => G.id x.2.2) ∘ fun x : G.Mv × G.S => (true, x.1, x.2)) = G.id ∘ Prod.snd from rfl,
            ← List.map_map, z, ← List.map_append]
          exact ((List.filter_append_perm _ _).map G.id).nodup_iff.2 hnd
        · exact Short.bind ((playActions_short hd ..).bind fun _ => short_lift _) fun m' => hT m'
        · rw [List.nil_append, bind_assoc']
          have hmid := hm.mid (ho k (m.keys n)) (forall₂_any has1) (forall₂_any has2)
          refine (turns_ind hid hd h1 h2 hT (fun m' E hm' => ih hm') (triples as1 as2 (pool m (order k (m.keys n)))) hmid).congr
            (fun i hi => ?_) fun i => leftChoice_short hd h1 h2 ..
          show leftChoice f1 f2 limit f k m (triples as1 as2 (pool m (order k (m.keys n)))) i = _
          unfold leftChoice leftTurn
          cases hf : (triples as1 as2 (pool m (order k (m.keys n)))).find? fun x => decide (G.id x.2.2 = i) with
          | some x => rfl
          | none =>
            simp only [List.not_mem_nil, if_false]
            unfold left
            cases hg : m.games i with
            | none => rfl
            | some e =>
              exfalso
              have hk : i ∈ m.keys n := List.mem_filter.2 ⟨List.mem_range.2 hi, by rw [hg]; rfl⟩
              have : e.1 ∈ pool m (order k (m.keys n)) :=
                List.mem_filterMap.2 ⟨i, (ho k (m.keys n)).mem_iff.2 hk, by rw [hg]; rfl⟩
              have hx : e.1 ∈ (triples as1 as2 (pool m (order k (m.keys n)))).map fun x => x.2.2 :=
                (triples_spec (forall₂_any has1) (forall₂_any has2)).1.mem_iff.2 this
              obtain ⟨x, hx1, hx2⟩ := List.mem_map.1 hx
              refine List.find?_eq_none.1 hf x hx1 (decide_eq_true ?_)
              rw [hx2]
              obtain ⟨s, hs⟩ := (hm.mem_keys i).1 hk
              have := hs.entry
              rw [hg] at this
              obtain rfl := Option.some.inj this
              exact hs.ident

/-! ## The whole match -/

/-- What remains of game `i` while the games `is` are not yet initialised. -/
def leftInit (f1 f2 : G.S → M G.Mv) (n limit f : Nat) (is : List Nat) (g : Nat → Option (G.S × Rec G)) (i : Nat) :
    M (List (Step G)) :=
  if i ∈ is then soloGame f1 f2 n limit f i
  else match g i with
    | none => pure []
    | some e => solo f1 f2 limit f 0 e.1 []

theorem leftInit_short (hd : Brief G) {f1 f2 : G.S → M G.Mv} (h1 : ∀ s, Short (f1 s)) (h2 : ∀ s, Short (f2 s)) (n limit f : Nat)
    (is : List Nat) (g : Nat → Option (G.S × Rec G)) (i : Nat) : Short (leftInit f1 f2 n limit f is g i) := by
  unfold leftInit
  split
  · exact (initState_short hd ..).bind fun s => solo_short hd.toShorts h1 h2 ..
  · split
    · exact short_pure _
    · exact solo_short hd.toShorts h1 h2 ..

theorem init_ind (hid : Ids G) (hd : Brief G) {f1 f2 : G.S → M G.Mv} (h1 : ∀ s, Short (f1 s)) (h2 : ∀ s, Short (f2 s)) {n limit : Nat}
    {a1 a2 : Agent} {order : Nat → List Nat → List Nat} (ho : ∀ k l, (order k l).Perm l) (f : Nat) (is : List Nat) (hn : is.Nodup)
    (hi : ∀ i ∈ is, i < n) {g : Nat → Option (G.S × Rec G)} (hg1 : ∀ i, n ≤ i → g i = none)
    (hg2 : ∀ i < n, i ∉ is → ∃ s u u', initState G n i u = .ok (s, u') ∧ g i = some (s, Rec.new i a1 a2 s)) :
    Ind n (leftInit f1 f2 n limit f is g) (initGames a1 a2 n is g >>= fun g =>
      playLoop a1 a2 (fun _ => eachGame f1) (fun _ => eachGame f2) n limit order f 0
        { games := g, played := [], wins1 := 0, wins2 := 0, steps := fun _ => [] } >>=
      fun m' => pure ((List.range n).map m'.steps)) := by
  have hT : ∀ m', Short (playLoop a1 a2 (fun _ => eachGame f1) (fun _ => eachGame f2) n limit order f 0 m' >>=
      fun m' => (pure ((List.range n).map m'.steps) : M (List (List (Step G))))) := fun m' =>
    (playLoop_like hd.toShorts a1 a2 (fun _ ss => (eachGame_short h1 ss).like) (fun _ ss => (eachGame_short h2 ss).like) n limit order f
      0 m').short.1.bind fun _ => short_pure _
  induction is generalizing g with
  | nil =>
    obtain ⟨init, -, h3⟩ := Inv.start (R := fun _ => True) (A1 := Any) (A2 := Any) (limit := limit) (a1 := a1) (a2 := a2) (g := g) hid
      (fun _ _ _ _ _ => trivial) (fun i hi => hg1 i (by simpa using hi)) fun i hi => hg2 i (List.mem_range.1 hi) (List.not_mem_nil)
    refine (loop_ind hid hd.toShorts h1 h2 ho f h3).congr (fun i hi => ?_) fun i => leftInit_short hd h1 h2 ..
    unfold leftInit left
    rw [if_neg List.not_mem_nil]
  | cons i is ih =>
    rw [List.nodup_cons] at hn
    have hi' := hi i (List.mem_cons_self ..)
    show Ind n _ ((initState G n i >>= fun s => initGames a1 a2 n is fun j => if j = i then some (s, Rec.new i a1 a2 s) else g j) >>= _)
    rw [bind_assoc']
    refine Ind.seg hi' (k := fun s => solo f1 f2 limit f 0 s []) ?_ (initState_short hd ..) (fun s => solo_short hd.toShorts h1 h2 ..)
      (fun j => leftInit_short hd h1 h2 ..) (fun s => (initGames_short hd ..).bind fun g => hT _) fun s t t' hs => ?_
    · unfold leftInit
      rw [if_pos (List.mem_cons_self ..)]
      rfl
    · refine (ih hn.2 (fun j hj => hi j (List.mem_cons_of_mem _ hj)) (g := fun j => if j = i then some (s, Rec.new i a1 a2 s) else g j)
        (fun j hj => ?_) fun j hj hj' => ?_).congr (fun j hj => ?_) fun j => ?_
      · rw [if_neg (by omega)]
        exact hg1 j hj
      · by_cases hji : j = i
        · subst hji
          exact ⟨s, t, t', hs, if_pos rfl⟩
        · simp only [if_neg hji]
          exact hg2 j hj (by simp [hji, hj'])
      · by_cases hji : j = i
        · subst hji
          rw [Function.update_self]
          unfold leftInit
          rw [if_neg hn.1]
          simp only [if_true]
        · rw [Function.update_of_ne hji]
          unfold leftInit
          simp only [List.mem_cons, hji, false_or, if_false]
      · by_cases hji : j = i
        · subst hji
          rw [Function.update_self]
          exact solo_short hd.toShorts h1 h2 ..
        · rw [Function.update_of_ne hji]
          exact leftInit_short hd h1 h2 ..

/-- The games of a match are independent, and each of them is the game played alone. -/
theorem playRun_ind (hid : Ids G) (hd : Brief G) {f1 f2 : G.S → M G.Mv} (h1 : ∀ s, Short (f1 s)) (h2 : ∀ s, Short (f2 s)) (n limit : Nat)
    (a1 a2 : Agent) {order : Nat → List Nat → List Nat} (ho : ∀ k l, (order k l).Perm l) (f : Nat) :
    Ind n (soloGame f1 f2 n limit f) (playRun a1 a2 (fun _ => eachGame f1) (fun _ => eachGame f2) n limit order f >>=
      fun m => pure ((List.range n).map m.steps)) := by
  unfold playRun
  rw [bind_assoc']
  refine (init_ind hid hd h1 h2 ho f (List.range n) List.nodup_range (fun i hi => List.mem_range.1 hi) (fun _ _ => rfl)
    fun i hi hi' => absurd (List.mem_range.2 hi) hi').congr (fun i hi => ?_)
    fun i => (initState_short hd ..).bind fun s => solo_short hd.toShorts h1 h2 ..
  unfold leftInit
  rw [if_pos (List.mem_range.2 hi)]

end DieE.Versus
