import Verif.Props.Amount
import Verif.Props.RunId

/-!
# C145: the amount of training in the train command

The directory of a TicTacToe run holds the fragments of its self-play iterations repeatedly (C50).  `train --run-id` takes one
step for each batch of all of them.
-/

namespace DieE.Props.Am
open DieE DieE.Mcts DieE.Train
open DieE.Props.Lr DieE.Props.A DieE.Props.Ad

variable {Fl : Floats} {W : Type} {pf : Profile}

theorem prefix_bounds {a b : Nat} {res : List (List Mem)} (h : ∀ r ∈ res, a ≤ r.length ∧ r.length ≤ b) :
    a * (res.length * (res.length + 1)) ≤ 2 * (prefixes res).flatten.length ∧
      2 * (prefixes res).flatten.length ≤ b * (res.length * (res.length + 1)) := by
  have key : ∀ n, n ≤ res.length →
      a * (n * (n + 1)) ≤ 2 * ((List.range n).map fun k => (res.take (k + 1)).flatten).flatten.length ∧
      2 * ((List.range n).map fun k => (res.take (k + 1)).flatten).flatten.length ≤ b * (n * (n + 1)) := by
    intro n
    induction n with
    | zero => simp
    | succ n ih =>
      intro hn
      obtain ⟨h1, h2⟩ := ih (by omega)
      obtain ⟨h3, h4⟩ := flatten_bounds (l := res.take (n + 1)) fun r hr => h r (List.mem_of_mem_take hr)
      rw [List.length_take, Nat.min_eq_left hn] at h3 h4
      rw [List.range_succ, List.map_append, List.flatten_append, List.length_append, List.map_singleton, List.flatten_singleton]
      constructor
      · nlinarith
      · nlinarith
  exact key _ (Nat.le_refl _)

/-- The fragments stored by a TicTacToe run. -/
theorem C145_stored {S : Setup Fl W} (ha : ∀ w, (S.net w).alphaOk = true) (hpw : PwWarm 9 S.play.pw) (hit : S.play.iterations ≠ 0)
    (hl : 9 ≤ S.play.limit) {c : Chance (TTT.game pf)} (hc : c.Valid) {f : Nat} {w : W} {ms : Models W} {t t' : Tape}
    {l : List (Iter W)} (h : learnParallel S c f w ms t = .ok (l, t')) (hm : 9 * S.games * S.selfPlays < 2 ^ 63) (hb : S.batch < 2 ^ 64) :
    5 * S.games * (S.selfPlays * (S.selfPlays + 1)) * S.learns ≤ 2 * (Ri.stored 9 l).flatten.length ∧
      2 * (Ri.stored 9 l).flatten.length ≤ 9 * S.games * (S.selfPlays * (S.selfPlays + 1)) * S.learns := by
  obtain ⟨h1, -, h3⟩ := C84_iterations hb hc h fun it hi => lt_of_le_of_lt (small ha hpw hit hl hc h it hi) hm
  rw [← h1]
  clear h h1 hm
  induction l with
  | nil => simp [Ri.stored]
  | cons it l ih =>
    obtain ⟨k1, k2⟩ := ih fun i hi => h3 i (List.mem_cons_of_mem _ hi)
    have hp := h3 it (List.mem_cons_self ..)
    obtain ⟨g1, g2⟩ := prefix_bounds (a := 5 * S.games) (b := 9 * S.games)
      (res := it.results.map fun x => x.map (Frag.mem 9)) (by
        intro r hr
        obtain ⟨x, hx, rfl⟩ := List.mem_map.1 hr
        obtain ⟨o, sp, t, t', ho, h, rfl⟩ := hp.played x hx
        rw [List.length_map]
        exact (Lt.C143_run (ha _) hpw hit ho hl h).2.2)
    rw [List.length_map, hp.count] at g1 g2
    have e : (Ri.stored 9 (it :: l)).flatten.length =
        (prefixes (it.results.map fun x => x.map (Frag.mem 9))).flatten.length + (Ri.stored 9 l).flatten.length := by
      unfold Ri.stored
      rw [List.flatMap_cons, List.flatten_append, List.length_append]
    rw [e, List.length_cons]
    generalize S.selfPlays * (S.selfPlays + 1) = q at *
    rw [Nat.mul_succ, Nat.mul_succ]
    omega

/-- C145: `train --run-id` on the directory of a TicTacToe run with the counts of config-example.toml takes between 20000 and
36000 optimizer steps. -/
theorem C145_example {S : Setup Fl W} (he : Example S) (ha : ∀ w, (S.net w).alphaOk = true) (hpw : PwWarm 9 S.play.pw)
    (hit : S.play.iterations ≠ 0) {c : Chance (TTT.game pf)} (hc : c.Valid) {f : Nat} {w : W} {ms : Models W} {t t' : Tape}
    {l : List (Iter W)} (h : learnParallel S c f w ms t = .ok (l, t')) {root : Tree} {id : Name}
    (hr : root.lookup [runName id] = some (.dir (runEntries 0 l))) {shuffle : List Mem → List Mem} (hs : ∀ l, (shuffle l).Perm l)
    {w0 : W} {out : Bool} {ms' ms'' : Models W} {o : Option W}
    (ht : trainCommand S shuffle root (some id) none none w0 out ms' = .ok (o, ms'')) :
    ∃ (xs : List (List Mem)) (w1 : W), Steps S.step xs w0 w1 ∧ 20000 ≤ xs.length ∧ xs.length ≤ 36000 ∧
      (out = true → o = some w1) ∧ (out = false → ∃ d, ms'' = some d ∧ d trainedName = some w1) := by
  have hb : S.batch < 2 ^ 64 := by rw [he.batch]; decide
  obtain ⟨h1, h2⟩ := C145_stored ha hpw hit (by rw [he.limit]; decide) hc h (by rw [he.games, he.selfPlays]; decide) hb
  rw [he.games, he.selfPlays, he.learns] at h1 h2
  obtain ⟨data, hd, hk⟩ := Ri.run_data (ttt_trains pf) (show (9 : Nat) ≠ 1 by decide) D.dims3 ha hpw hit (by rw [he.limit]; decide)
    (by rw [he.games]; decide) hc h hr
  have hk : (Ri.stored 9 l).flatten.length = data.length := hk.length_eq
  obtain ⟨xs, w1, k1, k2, k3⟩ := C88_trained hb hs hd (by omega) ht
  have hlen := batches_eq (by rw [he.batch]; decide) k1
  rw [he.batch] at hlen
  refine ⟨xs, w1, k2, by omega, by omega, ?_, ?_⟩
  · rintro rfl
    exact k3.1
  · rintro rfl
    obtain ⟨-, d, d', -, h4, h5, -⟩ := k3
    exact ⟨d', h4, h5⟩

/-- Steps that never fail, on fragments of the shapes that are loaded. -/
theorem train_returns {step : W → Tensor Int × Tensor Val × Tensor Int → Res W} (hstep : ∀ w x, ∃ w', step w x = .ok w') {b : Nat} (hb : b ≠ 0)
    (hb' : b < 2 ^ 64) {mem : List Mem} (hl : mem.length < 2 ^ 63) (hm : ∀ m ∈ mem, m.ps.shape = [9] ∧ m.state.shape = [3, 3, 3]) (w : W) :
    ∃ w', train pf b step mem w = .ok w' := by
  obtain ⟨bs, h1, h2, h3, -⟩ := batches_spec pf hb hb' hl
  have key : ∀ (bs : List (List Mem)) (w : W), (∀ x ∈ bs, x ≠ [] ∧ ∀ m ∈ x, m.ps.shape = [9] ∧ m.state.shape = [3, 3, 3]) →
      ∃ w', bs.foldlM (fun w sample => do
        let x ← batchTensors sample
        step w x) w = (.ok w' : Res W) := by
    intro bs
    induction bs with
    | nil => exact fun w _ => ⟨w, rfl⟩
    | cons x bs ih =>
      intro w h
      obtain ⟨g1, g2⟩ := h x (List.mem_cons_self ..)
      obtain ⟨y, g3, -⟩ := batchTensors_spec (N := 9) (sh := [3, 3, 3]) (by simp) g1 (fun m hm => (g2 m hm).1)
        (.inr ⟨fun m hm => (g2 m hm).2, by simp⟩)
      obtain ⟨w1, g4⟩ := hstep w y
      obtain ⟨w2, g5⟩ := ih w1 fun x hx => h x (List.mem_cons_of_mem _ hx)
      exact ⟨w2, V.res_bind.2 ⟨w1, V.res_bind.2 ⟨y, g3, g4⟩, g5⟩⟩
  obtain ⟨w', h4⟩ := key bs w fun x hx => ⟨List.ne_nil_of_length_pos (h3 x hx).1, fun m hmx => hm m (by
    rw [← h2]
    exact List.mem_flatten.2 ⟨x, hx, hmx⟩)⟩
  exact ⟨w', V.res_bind.2 ⟨bs, h1, h4⟩⟩

/-- The hypotheses hold for the directory left by a run of `longSetup`; training on it returns. -/
example (t : Tape) : ∃ l t' root o ms'', learnParallel (G := TTT.game .debug) longSetup (demoChance _) 9 0 none t = .ok (l, t') ∧
    root.lookup [runName ['a']] = some (.dir (runEntries 0 l)) ∧
    trainCommand longSetup (fun l => l) root (some ['a']) none none 0 true none = .ok (o, ms'') := by
  have hS : Sound longSetup 9 [3, 3, 3] (fun _ => True) :=
    ⟨fun _ _ => rfl, by decide, by decide, by decide, by decide, by decide, fun w _ _ _ _ _ _ => ⟨w + 1, rfl, trivial⟩, fun _ _ => rfl⟩
  have hpw : PwWarm 9 longSetup.play.pw := ⟨⟨rfl, fun _ h => h⟩, fun _ h _ => h⟩
  obtain ⟨l, t', h⟩ := C87_tictactoe_partial .debug hS hpw (demoChance_valid _) (w := 0) (ms := none) trivial (fun _ h => by cases h) t
  let root : Tree := .dir [(runName ['a'], .dir (runEntries 0 l))]
  have hr : root.lookup [runName ['a']] = some (.dir (runEntries 0 l)) := rfl
  have ha : ∀ w, (longSetup.net w).alphaOk = true := fun _ => rfl
  obtain ⟨data, hd, hk⟩ := Ri.run_data (ttt_trains .debug) (show (9 : Nat) ≠ 1 by decide) D.dims3 ha hpw (by decide) (by decide)
    (by decide) (demoChance_valid _) h hr
  have hk : List.Forall₂ Mem.Kept (Ri.stored 9 l).flatten data := hk
  obtain ⟨-, h2⟩ := C145_stored ha hpw (by decide) (by decide) (demoChance_valid _) h (by decide) (by decide)
  have h2 : 2 * (Ri.stored 9 l).flatten.length ≤ 9 * 1024 * (4 * (4 + 1)) * 100 := h2
  have hlen := hk.length_eq
  have hm : ∀ m ∈ data, m.ps.shape = [9] ∧ m.state.shape = [3, 3, 3] := by
    have hs : ∀ m ∈ (Ri.stored 9 l).flatten, m.ps.shape = [9] ∧ m.state.shape = [1, 3, 3, 3] := by
      intro m hm
      obtain ⟨x, hx, hmx⟩ := List.mem_flatten.1 hm
      obtain ⟨it, hi, hx⟩ := List.mem_flatMap.1 hx
      obtain ⟨k, -, rfl⟩ := List.mem_map.1 hx
      obtain ⟨r, hr, hmr⟩ := List.mem_flatten.1 hmx
      obtain ⟨r, hr', rfl⟩ := List.mem_map.1 (List.mem_of_mem_take hr)
      obtain ⟨y, hy, rfl⟩ := List.mem_map.1 hmr
      obtain ⟨o, sp, t1, t2, ho, h3, rfl⟩ := Ri.played (demoChance_valid _) h it hi r hr'
      obtain ⟨s, hs⟩ := D.run_states (ttt_trains .debug).net (ttt_trains .debug).coded (ttt_trains .debug).starts (ha _) hpw.toPwOK (by decide) ho h3 y hy
      exact ⟨rfl, (ttt_trains .debug).shape _ _ hs⟩
    intro m hm
    obtain ⟨i, hi, rfl⟩ := List.mem_iff_getElem.1 hm
    have g := (List.forall₂_iff_get.1 hk).2 i (by rw [hlen]; exact hi) hi
    obtain ⟨g1, g2⟩ := hs _ (List.getElem_mem (by rw [hlen]; exact hi))
    obtain ⟨-, g3, g4, -⟩ := g
    refine ⟨g3.1.trans g1, ?_⟩
    have g4 := g4.trans (congrArg List.tail g2)
    exact g4
  obtain ⟨w', hw⟩ := train_returns (pf := longSetup.pf) (step := longSetup.step) (fun w _ => ⟨w + 1, rfl⟩) (b := longSetup.batch) (by decide)
    (by decide) (mem := data) (by omega) hm 0
  exact ⟨l, t', root, some w', none, h, hr, V.res_bind.2 ⟨data, hd, V.res_bind.2 ⟨w', hw, rfl⟩⟩⟩

end DieE.Props.Am
