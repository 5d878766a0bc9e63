import Verif.Mcts.ProbsFacts

/-! # Facts about priors in exact arithmetic -/

namespace DieE.Mcts

/-- `p` is the policy `q` restricted to `codes` and rescaled to sum 1: a distribution, zero outside `codes`, proportional
to `q` on them. -/
structure IsPrior (N : Nat) (q : Nat → Rat) (codes : List Nat) (p : Row) : Prop where
  dist : IsDist N p
  zero : ∀ c, c < N → c ∉ codes → p c = some 0
  share : ∀ c ∈ codes, p c = some (q c / (codes.map q).sum)

/-- The entries of the codes sum to 1. -/
theorem IsPrior.sum_codes {N : Nat} {q : Nat → Rat} {codes : List Nat} {p : Row} (h : IsPrior N q codes p)
    (hs : (codes.map q).sum ≠ 0) : (codes.map fun c => (p c).getD 0).sum = 1 := by
  have e : codes.map (fun c => (p c).getD 0) = codes.map fun c => q c / (codes.map q).sum :=
    List.map_congr_left fun c hc => by rw [h.share c hc]; rfl
  rw [e, sum_map_div, div_self hs]

theorem sum_pos {q : Nat → Rat} {codes : List Nat} (hne : codes ≠ []) (hq : ∀ c ∈ codes, 0 < q c) :
    0 < (codes.map q).sum := by
  refine List.sum_pos (codes.map q) ?_ (by simpa using hne)
  intro x hx
  obtain ⟨c, hc, rfl⟩ := List.mem_map.1 hx
  exact hq c hc

/-- The selected entries of a policy. -/
def picks (q : Nat → Rat) (codes : List Nat) : List (Nat × Rat) := codes.map fun c => (c, q c)

theorem picks_fst (q : Nat → Rat) (codes : List Nat) : (picks q codes).map Prod.fst = codes := by
  unfold picks; simp [Function.comp_def]

theorem picks_snd (q : Nat → Rat) (codes : List Nat) : (picks q codes).map Prod.snd = codes.map q := by
  unfold picks; simp [Function.comp_def]

theorem sel_picks {q : Nat → Rat} {codes : List Nat} (hn : codes.Nodup) (c : Nat) :
    sel (picks q codes) c = if c ∈ codes then q c else 0 := by
  split
  · rename_i h
    exact sel_mem (w := (c, q c)) (by rw [picks_fst]; exact hn) (List.mem_map_of_mem h)
  · rename_i h
    exact sel_notMem (by rw [picks_fst]; exact h)

/-- A row that is `q` on the codes and zero elsewhere becomes a prior when divided by its sum. -/
theorem isPrior_of {N : Nat} {q : Nat → Rat} {codes : List Nat} (hn : codes.Nodup) (hN : ∀ c ∈ codes, c < N)
    (hne : codes ≠ []) (hq : ∀ c ∈ codes, 0 < q c) {p : Row}
    (hp : ∀ c, c < N → p c = some ((if c ∈ codes then q c else 0) / (codes.map q).sum)) : IsPrior N q codes p := by
  have hs := sum_pos hne hq
  have hs' : ((picks q codes).map Prod.snd).sum ≠ 0 := by rw [picks_snd]; exact ne_of_gt hs
  refine ⟨?_, ?_, ?_⟩
  · refine isDist_share (l := picks q codes) ?_ ?_ hs' ?_
    · intro w hw
      obtain ⟨c, hc, rfl⟩ := List.mem_map.1 hw
      exact le_of_lt (hq c hc)
    · intro w hw
      obtain ⟨c, hc, rfl⟩ := List.mem_map.1 hw
      exact hN c hc
    · intro c hc
      rw [hp c hc, picks_snd, sel_picks hn]
  · intro c hc hnot
    rw [hp c hc, if_neg hnot, zero_div]
  · intro c hc
    rw [hp c (hN c hc), if_pos hc]

theorem normalise_eq {N : Nat} {q : Nat → Rat} {codes : List Nat} (hn : codes.Nodup) (hN : ∀ c ∈ codes, c < N)
    (hs : (codes.map q).sum ≠ 0) {r : Row} (hr : ∀ c, c < N → r c = some (if c ∈ codes then q c else 0)) (c : Nat)
    (hc : c < N) : normalise N r c = some ((if c ∈ codes then q c else 0) / (codes.map q).sum) ∧
      rowSum N r = some (codes.map q).sum := by
  have e : rowSum N r = some (codes.map q).sum := by
    rw [rowSum_some hr, ← picks_snd q codes, ← sel_sum (l := picks q codes) (N := N) (by
      intro w hw
      obtain ⟨c, hc, rfl⟩ := List.mem_map.1 hw
      exact hN c hc)]
    congr 2
    apply List.map_congr_left
    intro c _
    rw [sel_picks hn]
  refine ⟨?_, e⟩
  unfold normalise
  rw [e, hr c hc]
  simp [Val.div, hs]

theorem putAll_pick {pol : Row} {codes : List Nat} (hn : codes.Nodup) (c : Nat) :
    putAll zeroRow (codes.map fun c => (c, pol c)) c = if c ∈ codes then pol c else some 0 := by
  have e : (codes.map fun c => ((c, pol c) : Nat × Val)).map Prod.fst = codes := by simp [Function.comp_def]
  split
  · rename_i h
    exact putAll_mem (w := (c, pol c)) zeroRow (by rw [e]; exact hn)
      (List.mem_map_of_mem (f := fun c => ((c, pol c) : Nat × Val)) h)
  · rename_i h
    exact putAll_notMem _ _ (by rw [e]; exact h)

variable {N : Nat} {pol : Row} {q : Nat → Rat} {codes : List Nat}

theorem priorTensor_isPrior (hpol : ∀ c, c < N → pol c = some (q c)) (hn : codes.Nodup) (hN : ∀ c ∈ codes, c < N)
    (hne : codes ≠ []) (hq : ∀ c ∈ codes, 0 < q c) : IsPrior N q codes (priorTensorExact N pol codes) := by
  refine isPrior_of hn hN hne hq fun c hc => ?_
  refine (normalise_eq hn hN (ne_of_gt (sum_pos hne hq)) ?_ c hc).1
  intro d hd
  rw [putAll_pick hn]
  split
  · exact hpol d hd
  · rfl

theorem priorBatch_isPrior (hpol : ∀ c, c < N → pol c = some (q c)) (hn : codes.Nodup) (hN : ∀ c ∈ codes, c < N)
    (hne : codes ≠ []) (hq : ∀ c ∈ codes, 0 < q c) : IsPrior N q codes (priorBatchExact N pol codes) := by
  refine isPrior_of hn hN hne hq fun c hc => ?_
  unfold priorBatchExact
  refine (normalise_eq hn hN (ne_of_gt (sum_pos hne hq)) ?_ c hc).1
  intro d hd
  have := putAll_pick (pol := fun _ => some 1) hn d
  simp only [hpol d hd, this]
  by_cases h : d ∈ codes <;> simp [h]

theorem foldl_div (s : Val) (codes : List Nat) (hn : codes.Nodup) (v : Row) (d : Nat) :
    codes.foldl (fun v c => fun d => if d = c then (v c).div s else v d) v d =
      if d ∈ codes then (v d).div s else v d := by
  induction codes generalizing v with
  | nil => simp
  | cons c codes ih =>
    rw [List.nodup_cons] at hn
    rw [List.foldl_cons, ih hn.2]
    by_cases hd : d = c
    · subst hd
      rw [if_neg hn.1, if_pos rfl, if_pos (List.mem_cons_self ..)]
    · rw [if_neg hd]
      by_cases hm : d ∈ codes
      · rw [if_pos hm, if_pos (List.mem_cons_of_mem _ hm)]
      · rw [if_neg hm, if_neg (by simp [hd, hm])]

theorem priorVec_isPrior (hpol : ∀ c, c < N → pol c = some (q c)) (hn : codes.Nodup) (hN : ∀ c ∈ codes, c < N)
    (hne : codes ≠ []) (hq : ∀ c ∈ codes, 0 < q c) : IsPrior N q codes (priorVecExact N pol codes) := by
  have hs := ne_of_gt (sum_pos hne hq)
  refine isPrior_of hn hN hne hq fun c hc => ?_
  unfold priorVecExact
  have hr : ∀ d, d < N → putAll zeroRow (codes.map fun c => (c, pol c)) d = some (if d ∈ codes then q d else 0) := by
    intro d hd
    rw [putAll_pick hn]
    split
    · exact hpol d hd
    · rfl
  rw [foldl_div _ _ hn, (normalise_eq hn hN hs hr c hc).2, hr c hc]
  split
  · simp [Val.div, hs]
  · simp

/-- Mixing two distributions. -/
theorem mix_isDist {eps : Rat} (h0 : 0 ≤ eps) (h1 : eps ≤ 1) {p noise : Row} (hp : IsDist N p) (hn : IsDist N noise) :
    IsDist N fun c => mixExact eps (p c) (noise c) := by
  obtain ⟨a, ha1, ha2⟩ := hp
  obtain ⟨b, hb1, hb2⟩ := hn
  refine ⟨fun c => (1 - eps) * a c + eps * b c, fun c hc => ⟨?_, ?_⟩, ?_⟩
  · show mixExact eps (p c) (noise c) = _
    rw [(ha1 c hc).1, (hb1 c hc).1]; rfl
  · exact add_nonneg (mul_nonneg (sub_nonneg.2 h1) (ha1 c hc).2) (mul_nonneg h0 (hb1 c hc).2)
  · rw [sum_map_add, sum_map_mul, sum_map_mul, ha2, hb2]; ring

/-! ## The priors of new children -/

variable {G : Game} {Fl : Floats}

theorem alphaExpandLoop_policy {n : Node G Fl} {prior : Nat → Res Fl.F} (as : List G.Mv) {st st' : Store G Fl}
    {ch ch' : List Nat} {t t' : Tape} (h : alphaExpandLoop n prior as st ch t = .ok ((st', ch'), t')) (j : Nat)
    (a : G.Mv) (hj : as[j]? = some a) :
    ∃ (m : Node G Fl) (code : Nat), st'[st.length + j]? = some m ∧ m.action = some a ∧ G.encode n.state a = .ok code ∧
      prior code = .ok m.policy := by
  induction as generalizing st ch t j with
  | nil => simp at hj
  | cons b as ih =>
    have h0 := h
    unfold alphaExpandLoop at h
    obtain ⟨code, t1, h1, h⟩ := M.bind_ok.1 h
    obtain ⟨value, t2, h2, h⟩ := M.bind_ok.1 h
    obtain ⟨next, t3, h3, h⟩ := M.bind_ok.1 h
    obtain ⟨⟨st1, c⟩, t4, h4, hrest⟩ := M.bind_ok.1 h
    rw [M.lift_ok, addNode_ok] at h4
    obtain ⟨⟨ms, hm, rfl, rfl⟩, rfl⟩ := h4
    cases j with
    | zero =>
      simp only [List.getElem?_cons_zero, Option.some.injEq] at hj
      subst hj
      obtain ⟨news, h5, -⟩ := alphaExpandLoop_ok _ hrest
      rw [M.lift_ok] at h1 h2
      refine ⟨freshNode next st.length (some n.idx) (some b) value ms, code, ?_, rfl, h1.1, h2.1⟩
      rw [h5]
      simp
    | succ j =>
      rw [List.getElem?_cons_succ] at hj
      obtain ⟨m, code, k1, k2, k3, k4⟩ := ih hrest j hj
      refine ⟨m, code, ?_, k2, k3, k4⟩
      rw [← k1]
      congr 1
      simp
      omega

/-- The child made for a move carries the prior at the code of the move. -/
theorem alphaExpandWith_policy {n n' : Node G Fl} {prior : Nat → Res Fl.F} {st st' : Store G Fl} {t t' : Tape}
    (hi : n.idx < st.length) (h : alphaExpandWith n prior st t = .ok ((st', n'), t')) (j : Nat) (a : G.Mv)
    (hj : n.expandable[j]? = some a) :
    ∃ (m : Node G Fl) (code : Nat), st'[st.length + j]? = some m ∧ m.action = some a ∧ G.encode n.state a = .ok code ∧
      prior code = .ok m.policy := by
  unfold alphaExpandWith at h
  obtain ⟨⟨st1, ch⟩, t1, h1, h⟩ := M.bind_ok.1 h
  obtain ⟨st2, t2, h5, h⟩ := M.bind_ok.1 h
  rw [M.lift_ok] at h5
  have h6 := M.pure_ok.1 h
  simp only [Prod.mk.injEq] at h6
  obtain ⟨⟨rfl, -⟩, -⟩ := h6
  have h5 := h5.1
  unfold setNode at h5
  split at h5
  · injection h5 with h5
    obtain ⟨m, code, k1, k2⟩ := alphaExpandLoop_policy _ h1 j a hj
    refine ⟨m, code, ?_, k2⟩
    rw [← h5, List.getElem?_set_ne (by show n.idx ≠ _; omega)]
    exact k1
  · cases h5

end DieE.Mcts
