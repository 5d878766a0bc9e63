import Verif.Mcts.Draw
import Verif.Props.Alpha
import Mathlib.Probability.ConditionalProbability
import Mathlib.MeasureTheory.Measure.Lebesgue.Basic
import Mathlib.Analysis.SpecialFunctions.Pow.Asymptotics
import Mathlib.Analysis.SpecialFunctions.Pow.Continuity

/-! # C98: how likely each move is to be drawn -/

namespace DieE.Props.Dr
open DieE DieE.Mcts DieE.Props.S DieE.Props.A MeasureTheory

variable {G : Game} {Fl : Floats}

/-! ## The draw of the model and the draw of the crate -/

theorem range_map_some {α : Type} {N : Nat} {p : Nat → Option α} {l : List α} (h : (List.range N).map p = l.map some) :
    l.length = N ∧ ∀ c, c < N → p c = l[c]? := by
  have hlen : l.length = N := by simpa using (congrArg List.length h).symm
  refine ⟨hlen, fun c hc => ?_⟩
  have := congrArg (fun l => l[c]?) h
  simp only [List.getElem?_map, List.getElem?_range hc, Option.map_some] at this
  have hc' : c < l.length := by omega
  rw [List.getElem?_eq_getElem hc'] at this ⊢
  simpa using this

/-- C98 (the abstraction is exact): the draw used in the model returns a code for some tape exactly if the draw of the
crate returns it for some number in `[0, total)`; and the one panics, for whatever tape, exactly if the other does. -/
theorem C98_agree (N : Nat) (p : Row) :
    (∀ c, (∃ t t', weightedSelect N p t = .ok (c, t')) ↔
      ∃ d, weightedIndexNew ((List.range N).map p) = .ok d ∧ ∃ x, 0 ≤ x ∧ x < d.total ∧ d.sample x = c) ∧
    ∀ t, (∃ c t', weightedSelect N p t = .ok (c, t')) ↔ ∃ d, weightedIndexNew ((List.range N).map p) = .ok d := by
  have hsup : ∀ c, (∃ t t', weightedSelect N p t = .ok (c, t')) ↔
      (∀ b, b < N → ∃ x, p b = some x ∧ 0 ≤ x) ∧ c < N ∧ ∃ x, p c = some x ∧ 0 < x := by
    intro c
    constructor
    · rintro ⟨t, t', h⟩
      refine ⟨?_, weightedSelect_ok h⟩
      unfold weightedSelect at h
      split at h
      · rename_i hall
        intro b hb
        have := List.all_eq_true.1 hall b (List.mem_range.2 hb)
        cases hp : p b with
        | none => rw [hp] at this; cases this
        | some x => rw [hp] at this; exact ⟨x, rfl, of_decide_eq_true this⟩
      · exact (M.fail_ok.1 h).elim
    · rintro ⟨h1, h2, x, h3, h4⟩
      have hmem : c ∈ (List.range N).filter fun c => decide (p c ≠ some 0) := by
        simp only [List.mem_filter, List.mem_range, decide_eq_true_eq]
        exact ⟨h2, by rw [h3]; intro h; injection h with h; exact absurd h (ne_of_gt h4)⟩
      obtain ⟨k, hk, hk'⟩ := List.getElem_of_mem hmem
      refine ⟨fun _ => k, fun _ => k, ?_⟩
      unfold weightedSelect
      rw [if_pos (List.all_eq_true.2 fun b hb => by
        obtain ⟨y, g1, g2⟩ := h1 b (List.mem_range.1 hb)
        simp [g1, Val.isWeight, g2])]
      refine M.bind_ok.2 ⟨some c, fun _ => k, ?_, rfl⟩
      revert hk hk' hmem
      generalize (List.range N).filter (fun c => decide (p c ≠ some 0)) = l
      intro hmem hk hk'
      cases l with
      | nil => cases hmem
      | cons a l =>
        unfold M.choose
        refine M.bind_ok.2 ⟨k, fun _ => k, rfl, ?_⟩
        rw [Nat.mod_eq_of_lt (by simpa using hk)]
        refine M.pure_ok.2 ?_
        rw [List.getD_eq_getElem?_getD, List.getElem?_eq_getElem hk, hk']
        rfl
  have hnew : (∃ d, weightedIndexNew ((List.range N).map p) = .ok d) ↔
      (∀ b, b < N → ∃ x, p b = some x ∧ 0 ≤ x) ∧ ∃ c, c < N ∧ ∃ x, p c = some x ∧ 0 < x := by
    constructor
    · rintro ⟨d, hd⟩
      obtain ⟨l, e1, e2, e3, e4, -⟩ := weightedIndexNew_ok.1 hd
      obtain ⟨hlen, hp⟩ := range_map_some e1
      refine ⟨fun b hb => ?_, ?_⟩
      · have hb' : b < l.length := by omega
        exact ⟨l[b], by rw [hp b hb, List.getElem?_eq_getElem hb'], e3 _ (List.getElem_mem hb')⟩
      · by_contra hno
        refine e4 (List.sum_eq_zero fun w hw => ?_)
        obtain ⟨k, hk, rfl⟩ := List.getElem_of_mem hw
        refine le_antisymm (not_lt.1 fun h0 => hno ⟨k, by omega, l[k], ?_, h0⟩) (e3 _ hw)
        rw [hp k (by omega), List.getElem?_eq_getElem hk]
    · rintro ⟨h1, c, hc, x, hx, hx0⟩
      have hl : (List.range N).map p = ((List.range N).map fun b => (p b).getD 0).map some := by
        rw [List.map_map]
        refine List.map_congr_left fun b hb => ?_
        obtain ⟨y, g1, -⟩ := h1 b (List.mem_range.1 hb)
        simp [g1]
      have hnn : ∀ w ∈ (List.range N).map fun b => (p b).getD 0, 0 ≤ w := by
        intro w hw
        obtain ⟨b, hb, rfl⟩ := List.mem_map.1 hw
        obtain ⟨y, g1, g2⟩ := h1 b (List.mem_range.1 hb)
        simpa [g1] using g2
      refine ⟨_, weightedIndexNew_ok.2 ⟨_, hl, ?_, hnn, ?_, rfl⟩⟩
      · intro h0
        have := congrArg List.length h0
        simp at this
        omega
      · have := List.single_le_sum hnn x (List.mem_map.2 ⟨c, List.mem_range.2 hc, by rw [hx]; rfl⟩)
        exact ne_of_gt (lt_of_lt_of_le hx0 this)
  refine ⟨fun c => ?_, fun t => ?_⟩
  · rw [hsup c]
    constructor
    · rintro ⟨h1, h2, x, h3, h4⟩
      obtain ⟨d, hd⟩ := hnew.2 ⟨h1, c, h2, x, h3, h4⟩
      refine ⟨d, hd, ?_⟩
      obtain ⟨l, e1, -⟩ := weightedIndexNew_ok.1 hd
      obtain ⟨hlen, hp⟩ := range_map_some e1
      rw [e1] at hd
      exact (sample_support hd c).2 ⟨x, by rw [← hp c h2, h3], h4⟩
    · rintro ⟨d, hd, hx⟩
      refine ⟨(hnew.1 ⟨d, hd⟩).1, ?_⟩
      obtain ⟨l, e1, -⟩ := weightedIndexNew_ok.1 hd
      obtain ⟨hlen, hp⟩ := range_map_some e1
      rw [e1] at hd
      obtain ⟨w, hw, hw0⟩ := (sample_support hd c).1 hx
      have hc : c < N := by have := (List.getElem?_eq_some_iff.1 hw).1; omega
      exact ⟨hc, w, by rw [hp c hc, hw], hw0⟩
  · rw [hnew]
    constructor
    · rintro ⟨c, t', h⟩
      obtain ⟨h1, h2⟩ := (hsup c).1 ⟨t, t', h⟩
      exact ⟨h1, c, h2⟩
    · rintro ⟨h1, c, h2, x, h3, h4⟩
      exact weightedSelect_progress h1 h2 h3 h4 t

/-! ## Probabilities -/

/-- The probability that the number drawn uniformly from `[0, total)` selects index `i`. -/
noncomputable def chance (d : WeightedIndex ℝ) (i : Nat) : ENNReal :=
  ProbabilityTheory.cond volume (Set.Ico 0 d.total) {x | d.sample x = i}

/-- C98 (the crate): each index is drawn with probability its weight divided by the sum of all weights. -/
theorem C98_weights {l : List ℝ} {d : WeightedIndex ℝ} (h : weightedIndexNew (l.map some) = .ok d) (i : Nat) :
    chance d i = ENNReal.ofReal ((l[i]?.getD 0) / l.sum) := by
  obtain ⟨l', e1, e2, e3, e4, e5⟩ := weightedIndexNew_ok.1 h
  obtain rfl : l = l' := List.map_injective_iff.2 (Option.some_injective ℝ) e1
  have htot : d.total = l.sum := by rw [e5]
  have hpos : 0 < l.sum := lt_of_le_of_ne (List.sum_nonneg e3) (Ne.symm e4)
  unfold chance
  rw [ProbabilityTheory.cond_apply measurableSet_Ico, Real.volume_Ico, htot, sub_zero]
  have hset : Set.Ico 0 l.sum ∩ {x | d.sample x = i} =
      if i < l.length then Set.Ico (before l i) (before l (i + 1)) else ∅ := by
    ext x
    constructor
    · rintro ⟨⟨h0, h1⟩, hx⟩
      obtain ⟨g1, g2, g3⟩ := (sample_iff rfl h h0 (by rw [htot]; exact h1) i).1 hx
      rw [if_pos g1]
      exact ⟨g2, g3⟩
    · intro hx
      split at hx
      · rename_i hi
        have h0 : 0 ≤ x := le_trans (List.sum_nonneg fun v hv => e3 v (List.mem_of_mem_take hv)) hx.1
        have h1 : x < l.sum := by
          refine lt_of_lt_of_le hx.2 ?_
          have : before l l.length = l.sum := by simp [before]
          rw [← this]
          exact before_mono e3 (by omega)
        exact ⟨⟨h0, h1⟩, (sample_iff rfl h h0 (by rw [htot]; exact h1) i).2 ⟨hi, hx.1, hx.2⟩⟩
      · cases hx
  rw [hset]
  by_cases hi : i < l.length
  · rw [if_pos hi, Real.volume_Ico, before_succ (List.getElem?_eq_getElem hi), add_sub_cancel_left,
      List.getElem?_eq_getElem hi, Option.getD_some, ← ENNReal.ofReal_inv_of_pos hpos,
      ← ENNReal.ofReal_mul (inv_nonneg.2 hpos.le), div_eq_inv_mul]
  · rw [if_neg hi, List.getElem?_eq_none (by omega)]
    simp

/-- The tempered row, with real powers: `row.pow_(1.0 / temperature)`, alphazero.rs:144. -/
noncomputable def tempered (T : ℝ) (N : Nat) (row : Row) : List (Option ℝ) :=
  (List.range N).map fun c => (row c).map fun x => (x : ℝ) ^ (1 / T)

/-- The share of the child in the powers of the visits of all children. -/
noncomputable def powerShare (T : ℝ) (st : Store G Fl) (n : Node G Fl) (c : Nat) : ℝ :=
  (visitsAt st c : ℝ) ^ (1 / T) / (n.children.map fun b => (visitsAt st b : ℝ) ^ (1 / T)).sum

theorem sum_over_codes {N : Nat} {f : Nat → ℝ} {cs : List Nat} (hnd : cs.Nodup) (hN : ∀ c ∈ cs, c < N)
    (h0 : ∀ c, c < N → c ∉ cs → f c = 0) : ((List.range N).map f).sum = (cs.map f).sum := by
  rw [← List.sum_toFinset f hnd, ← List.sum_toFinset f List.nodup_range]
  refine (Finset.sum_subset ?_ ?_).symm
  · intro c hc
    exact List.mem_toFinset.2 (List.mem_range.2 (hN c (List.mem_toFinset.1 hc)))
  · intro c hc hc'
    exact h0 c (List.mem_range.1 (List.mem_toFinset.1 hc)) fun h => hc' (List.mem_toFinset.2 h)

/-- The draw from the tempered row of a node all of whose moves were expanded. -/
theorem chance_shares {R : G.S → Prop} (hc : Coded G R) {st : Store G Fl} (w : WellFormed st) {i : Nat} {n : Node G Fl}
    (hi : st[i]? = some n) (hR : R n.state) {ms : List G.Mv} (hms : G.moves n.state = .ok ms)
    (hperm : (childActions st n).Perm ms) {row : Row} (hsh : Shares st n row)
    (hv : ∃ c ∈ n.children, visitsAt st c ≠ 0) {T : ℝ} (hT : 0 < T) :
    ∃ d, weightedIndexNew (tempered T G.actionSpace row) = .ok d ∧
      (∀ a ∈ ms, ∃ c m code, c ∈ n.children ∧ st[c]? = some m ∧ m.action = some a ∧ G.encode n.state a = .ok code ∧
        chance d code = ENNReal.ofReal (powerShare T st n c)) ∧
      ∀ code, (∀ a ∈ ms, G.encode n.state a ≠ .ok code) → chance d code = 0 := by
  have he : 0 < 1 / T := by positivity
  set e := 1 / T with hedef
  obtain ⟨q, hq, -⟩ := hsh.dist hv
  set N := G.actionSpace with hN
  -- the weights
  set l : List ℝ := (List.range N).map fun c => ((q c : ℝ)) ^ e with hl
  have hrow : tempered T N row = l.map some := by
    unfold tempered
    rw [hl, List.map_map]
    refine List.map_congr_left fun c hcm => ?_
    rw [(hq c (List.mem_range.1 hcm)).1]
    rfl
  have hlget : ∀ c, c < N → l[c]? = some ((q c : ℝ) ^ e) := by
    intro c hcl
    rw [hl, List.getElem?_map, List.getElem?_range hcl]
    rfl
  have hlout : ∀ c, ¬ c < N → l[c]? = none := by
    intro c hcl
    exact List.getElem?_eq_none (by rw [hl]; simpa using hcl)
  have hnn : ∀ v ∈ l, 0 ≤ v := by
    intro v hvm
    obtain ⟨c, hcm, rfl⟩ := List.mem_map.1 hvm
    exact Real.rpow_nonneg (by exact_mod_cast (hq c (List.mem_range.1 hcm)).2) _
  -- the children
  obtain ⟨-, k2, k3⟩ := childVisits_ok hc w hi hR
  have hchild : ∀ c ∈ n.children, ∃ (m : Node G Fl) (a : G.Mv), st[c]? = some m ∧ m.action = some a ∧ a ∈ ms ∧
      G.encode n.state a = .ok (childEntry n.state st c).1 := by
    intro c hcm
    obtain ⟨m, hm, -⟩ := w.down i n c hi hcm
    obtain ⟨a, ms', g1, g2, g3, -⟩ := child_legal w hi hcm hm
    rw [hms] at g2
    injection g2 with g2
    subst g2
    obtain ⟨code, e1, -, -⟩ := hc.code n.state ms a hR hms g3
    refine ⟨m, a, hm, g1, g3, ?_⟩
    rw [childEntry_eq hm g1]
    simp [codeOf, e1]
  set tot : Nat := (n.children.map (visitsAt st)).sum with htot
  have htotpos : 0 < tot := by
    obtain ⟨c, hcm, hcv⟩ := hv
    exact childTotal_pos hcm (by omega)
  have hqv : ∀ c ∈ n.children, (q (childEntry n.state st c).1 : ℝ) = (visitsAt st c : ℝ) / (tot : ℝ) := by
    intro c hcm
    obtain ⟨m, a, g1, g2, -, g4⟩ := hchild c hcm
    have h1 := hsh.share hv c _ m a hcm g1 g2 g4
    have hlt := (k3 _ (List.mem_map.2 ⟨c, hcm, rfl⟩)).1
    rw [(hq _ hlt).1] at h1
    injection h1 with h1
    rw [h1]
    have : visitsAt st c = m.visits := by unfold visitsAt; rw [g1]; rfl
    rw [this, Rat.cast_div, Rat.cast_natCast, Rat.cast_natCast]
  have hpow : ∀ c ∈ n.children, (q (childEntry n.state st c).1 : ℝ) ^ e = (visitsAt st c : ℝ) ^ e / (tot : ℝ) ^ e := by
    intro c hcm
    rw [hqv c hcm, Real.div_rpow (by positivity) (by positivity)]
  -- codes of no child have weight zero
  have hmemchild : ∀ a ∈ ms, ∃ c m, c ∈ n.children ∧ st[c]? = some m ∧ m.action = some a := by
    intro a ham
    obtain ⟨c, hcm, hca⟩ := List.mem_filterMap.1 (hperm.mem_iff.2 ham)
    cases hm : st[c]? with
    | none => rw [hm] at hca; cases hca
    | some m => rw [hm] at hca; exact ⟨c, m, hcm, hm, hca⟩
  have hzero : ∀ c, c < N → (∀ a ∈ ms, G.encode n.state a ≠ .ok c) → q c = 0 := by
    intro c hcl hno
    have := hsh.zero hv c ms hms hno
    rw [(hq c hcl).1] at this
    injection this
  have hsum : l.sum = (n.children.map fun b => (visitsAt st b : ℝ) ^ e).sum / (tot : ℝ) ^ e := by
    have h1 : l.sum = (((n.children.map (childEntry n.state st)).map Prod.fst).map fun c => ((q c : ℝ)) ^ e).sum := by
      refine sum_over_codes k2 ?_ ?_
      · intro c hcm
        obtain ⟨p, hp, rfl⟩ := List.mem_map.1 hcm
        exact (k3 p hp).1
      · intro c hcl hno
        rw [hzero c hcl ?_]
        · simp [he.ne']
        · intro a ham henc
          obtain ⟨b, m, g1, g2, g3⟩ := hmemchild a ham
          refine hno (List.mem_map.2 ⟨_, List.mem_map.2 ⟨b, g1, rfl⟩, ?_⟩)
          rw [childEntry_eq g2 g3]
          simp [codeOf, henc]
    rw [h1, List.map_map, List.map_map, div_eq_mul_inv, ← List.sum_map_mul_right]
    refine congrArg List.sum (List.map_congr_left fun c hcm => ?_)
    exact (hpow c hcm).trans (div_eq_mul_inv _ _)
  have htp : (0 : ℝ) < (tot : ℝ) ^ e := Real.rpow_pos_of_pos (by exact_mod_cast htotpos) _
  have hSpos : 0 < (n.children.map fun b => (visitsAt st b : ℝ) ^ e).sum := by
    obtain ⟨c, hcm, hcv⟩ := hv
    refine lt_of_lt_of_le (b := (visitsAt st c : ℝ) ^ e) ?_ ?_
    · exact Real.rpow_pos_of_pos (by exact_mod_cast Nat.pos_of_ne_zero hcv) _
    · refine List.single_le_sum ?_ _ (List.mem_map.2 ⟨c, hcm, rfl⟩)
      intro v hvm
      obtain ⟨b, -, rfl⟩ := List.mem_map.1 hvm
      positivity
  have hlsum : l.sum ≠ 0 := by rw [hsum]; exact (div_pos hSpos htp).ne'
  have hlne : l ≠ [] := by intro h0; rw [h0] at hlsum; exact hlsum rfl
  have hnew := weightedIndexNew_ok.2 ⟨l, hrow, hlne, hnn, hlsum, rfl⟩
  refine ⟨_, hnew, ?_, ?_⟩
  · intro a ham
    obtain ⟨c, m, g1, g2, g3⟩ := hmemchild a ham
    obtain ⟨m', a', f1, f2, -, f4⟩ := hchild c g1
    rw [g2] at f1
    cases Option.some.inj f1
    rw [g3] at f2
    cases Option.some.inj f2
    refine ⟨c, m, _, g1, g2, g3, f4, ?_⟩
    rw [hrow] at hnew
    rw [C98_weights hnew, hlget _ (k3 _ (List.mem_map.2 ⟨c, g1, rfl⟩)).1, Option.getD_some, hpow c g1, hsum]
    rw [div_div_div_cancel_right₀ htp.ne']
    rfl
  · intro code hno
    rw [hrow] at hnew
    rw [C98_weights hnew]
    by_cases hcl : code < N
    · rw [hlget code hcl, hzero code hcl hno]
      simp [he.ne']
    · rw [hlout code hcl]
      simp

/-- C98: after a search of at least one iteration, the code of each legal move of a searched position is drawn with
probability `v^(1/T) / Σ v'^(1/T)`, `v` the visits of the child reached by the move and `v'` those of all children; other
codes are drawn with probability zero. -/
theorem C98_search {R : G.S → Prop} (hs : SafeNet G R) (hc : Coded G R) {net : Mcts.Net Fl} (ha : net.alphaOk = true)
    {states : List G.S} (hne : states ≠ []) (hstates : ∀ s ∈ states, R s) {order : List Nat}
    (ho : order.Perm (List.range states.length)) {iterations : Nat} (hit : iterations ≠ 0) {st : Store G Fl} {t t' : Tape}
    (h : alphaMctsParallel net order states iterations ([] : Store G Fl) t = .ok (st, t'))
    {rows : List Row} (hrows : getProbTensorParallel (getRootNodes st) st = .ok rows)
    {j : Nat} {s : G.S} {row : Row} (hj : states[j]? = some s) (hrow : rows[j]? = some row)
    {ms : List G.Mv} (hms : G.moves s = .ok ms) (hmne : ms ≠ []) {T : ℝ} (hT : 0 < T) :
    ∃ n d, st[j]? = some n ∧ n.state = s ∧ weightedIndexNew (tempered T G.actionSpace row) = .ok d ∧
      (∀ a ∈ ms, ∃ c m code, c ∈ n.children ∧ st[c]? = some m ∧ m.action = some a ∧ G.encode s a = .ok code ∧
        chance d code = ENNReal.ofReal (powerShare T st n c)) ∧
      ∀ code, (∀ a ∈ ms, G.encode s a ≠ .ok code) → chance d code = 0 := by
  obtain ⟨st0, t0, h0, hR⟩ := alphaMctsParallel_progress (Fl := Fl) hs ha hne hstates ho iterations t
  rw [h] at h0
  injection h0 with h0
  simp only [Prod.mk.injEq] at h0
  obtain ⟨rfl, rfl⟩ := h0
  have f := alphaMctsParallel_forest ho h
  obtain ⟨rows', h1, h2, h3⟩ := C39_rows hc f.wf hR (nodes := getRootNodes st) (by
    intro n hn
    exact List.getElem?_of_mem (List.mem_of_mem_filter hn))
  rw [hrows] at h1
  injection h1 with h1
  subst h1
  have hjl := (List.getElem?_eq_some_iff.1 hj).1
  obtain ⟨n, ms', g1, g2, g3, g4, g5⟩ := alphaMctsParallel_visited ho h j s hj
  rw [hms] at g3
  injection g3 with g3
  subst g3
  have hnode : (getRootNodes st)[j]? = some n := by
    rw [getRootNodes_take f, List.getElem?_take, if_pos hjl]
    exact g1
  have hsh := h3 j n row hnode hrow
  obtain ⟨c, hc1, hc2⟩ := g5 hit hmne
  subst g2
  obtain ⟨d, k1, k2, k3⟩ := chance_shares hc f.wf g1 (hR j n g1) hms g4 hsh ⟨c, hc1, by omega⟩ hT
  exact ⟨n, d, g1, rfl, k1, k2, k3⟩

/-! ## What the temperature does -/

/-- The sum of the powers of the visits is positive if some child was visited. -/
theorem powers_pos {st : Store G Fl} {n : Node G Fl} (hv : ∃ c ∈ n.children, visitsAt st c ≠ 0) (T : ℝ) :
    0 < (n.children.map fun b => (visitsAt st b : ℝ) ^ (1 / T)).sum := by
  obtain ⟨c, hcm, hcv⟩ := hv
  refine lt_of_lt_of_le (b := (visitsAt st c : ℝ) ^ (1 / T)) ?_ ?_
  · exact Real.rpow_pos_of_pos (by exact_mod_cast Nat.pos_of_ne_zero hcv) _
  · refine List.single_le_sum ?_ _ (List.mem_map.2 ⟨c, hcm, rfl⟩)
    intro v hvm
    obtain ⟨b, -, rfl⟩ := List.mem_map.1 hvm
    positivity

/-- C98: of two moves the one whose child was visited more often is more likely, at every temperature, and moves visited
equally often are equally likely. -/
theorem C98_order {st : Store G Fl} {n : Node G Fl} (hv : ∃ c ∈ n.children, visitsAt st c ≠ 0) {T : ℝ} (hT : 0 < T)
    (b c : Nat) : powerShare T st n b < powerShare T st n c ↔ visitsAt st b < visitsAt st c := by
  unfold powerShare
  rw [div_lt_div_iff_of_pos_right (powers_pos hv T),
    Real.rpow_lt_rpow_iff (Nat.cast_nonneg _) (Nat.cast_nonneg _) (by positivity)]
  exact Nat.cast_lt

/-- C98: the lower the temperature, the closer to certainty is the move whose child was visited most. -/
theorem C98_cold {st : Store G Fl} {n : Node G Fl} (hnd : n.children.Nodup) {c : Nat} (hc : c ∈ n.children)
    (hmax : ∀ b ∈ n.children, b ≠ c → visitsAt st b < visitsAt st c) (h0 : visitsAt st c ≠ 0) :
    Filter.Tendsto (fun T => powerShare T st n c) (nhdsWithin 0 (Set.Ioi 0)) (nhds 1) := by
  have hcpos : (0 : ℝ) < visitsAt st c := by exact_mod_cast Nat.pos_of_ne_zero h0
  have hT : Filter.Tendsto (fun T : ℝ => 1 / T) (nhdsWithin 0 (Set.Ioi 0)) Filter.atTop := by
    simpa using tendsto_inv_nhdsGT_zero (𝕜 := ℝ)
  have hterm : ∀ b ∈ n.children, Filter.Tendsto (fun T : ℝ => ((visitsAt st b : ℝ) / visitsAt st c) ^ (1 / T))
      (nhdsWithin 0 (Set.Ioi 0)) (nhds (if b = c then 1 else 0)) := by
    intro b hb
    by_cases hbc : b = c
    · rw [if_pos hbc, hbc, div_self hcpos.ne']
      simp
    · rw [if_neg hbc]
      have hlt : (visitsAt st b : ℝ) / visitsAt st c < 1 := by
        rw [div_lt_one hcpos]
        exact_mod_cast hmax b hb hbc
      exact (tendsto_rpow_atTop_of_base_lt_one _ (by
        have : (0 : ℝ) ≤ (visitsAt st b : ℝ) / visitsAt st c := by positivity
        linarith) hlt).comp hT
  have hsum : Filter.Tendsto
      (fun T : ℝ => (n.children.map fun b => ((visitsAt st b : ℝ) / visitsAt st c) ^ (1 / T)).sum)
      (nhdsWithin 0 (Set.Ioi 0)) (nhds (n.children.map fun b => if b = c then (1 : ℝ) else 0).sum) :=
    tendsto_list_sum _ hterm
  have hone : (n.children.map fun b => if b = c then (1 : ℝ) else 0).sum = 1 := by
    rw [← List.sum_toFinset _ hnd, Finset.sum_ite_eq' n.children.toFinset c fun _ => (1 : ℝ),
      if_pos (List.mem_toFinset.2 hc)]
  rw [hone] at hsum
  have hinv := hsum.inv₀ one_ne_zero
  rw [inv_one] at hinv
  refine hinv.congr fun T => ?_
  unfold powerShare
  have hp : (0 : ℝ) < (visitsAt st c : ℝ) ^ (1 / T) := Real.rpow_pos_of_pos hcpos _
  have : (n.children.map fun b => ((visitsAt st b : ℝ) / visitsAt st c) ^ (1 / T)).sum =
      (n.children.map fun b => (visitsAt st b : ℝ) ^ (1 / T)).sum * ((visitsAt st c : ℝ) ^ (1 / T))⁻¹ := by
    rw [← List.sum_map_mul_right]
    refine congrArg List.sum (List.map_congr_left fun b _ => ?_)
    rw [Real.div_rpow (Nat.cast_nonneg _) hcpos.le, div_eq_mul_inv]
  rw [this, mul_inv, inv_inv, mul_comm]
  exact (div_eq_mul_inv _ _).symm

/-- C98: the higher the temperature, the closer are the visited moves to being equally likely. -/
theorem C98_hot {st : Store G Fl} {n : Node G Fl} {c : Nat} (hc : c ∈ n.children) (h0 : visitsAt st c ≠ 0) :
    Filter.Tendsto (fun T => powerShare T st n c) Filter.atTop
      (nhds (1 / (n.children.filter fun b => decide (visitsAt st b ≠ 0)).length)) := by
  have hT : Filter.Tendsto (fun T : ℝ => 1 / T) Filter.atTop (nhds 0) := by
    simpa using tendsto_inv_atTop_zero (𝕜 := ℝ)
  have hterm : ∀ b, Filter.Tendsto (fun T : ℝ => (visitsAt st b : ℝ) ^ (1 / T)) Filter.atTop
      (nhds (if visitsAt st b ≠ 0 then 1 else 0)) := by
    intro b
    by_cases hb : visitsAt st b = 0
    · rw [if_neg (by simpa using hb), hb]
      refine tendsto_const_nhds.congr' ?_
      filter_upwards [Filter.eventually_gt_atTop (0 : ℝ)] with T hT
      have : (1 / T) ≠ 0 := by positivity
      simp only [Nat.cast_zero]
      rw [Real.zero_rpow this]
    · rw [if_pos (by simpa using hb)]
      have hb' : (visitsAt st b : ℝ) ≠ 0 := by exact_mod_cast hb
      have := Filter.Tendsto.rpow (tendsto_const_nhds (x := (visitsAt st b : ℝ)) (f := Filter.atTop)) hT (Or.inl hb')
      simpa using this
  have hsum := tendsto_list_sum n.children fun b _ => hterm b
  have hcount : (n.children.map fun b => if visitsAt st b ≠ 0 then (1 : ℝ) else 0).sum =
      ((n.children.filter fun b => decide (visitsAt st b ≠ 0)).length : ℝ) := by
    generalize n.children = l
    induction l with
    | nil => simp
    | cons b l ih =>
      rw [List.map_cons, List.sum_cons, ih, List.filter_cons]
      by_cases hb : visitsAt st b = 0
      · simp [hb]
      · simp [hb]; ring
  rw [hcount] at hsum
  have hpos : ((n.children.filter fun b => decide (visitsAt st b ≠ 0)).length : ℝ) ≠ 0 := by
    have : c ∈ n.children.filter fun b => decide (visitsAt st b ≠ 0) := by simp [hc, h0]
    exact_mod_cast (List.length_pos_of_mem this).ne'
  have h1 := hterm c
  rw [if_pos h0] at h1
  exact h1.div hsum hpos

/-! ## Examples -/

/-- Weights 0, 1/2, 0, 3/2: numbers below 1/2 give index 1, the others below the total 2 give index 3. -/
example : (weightedIndexNew [some (0 : Rat), some (1/2), some 0, some (3/2)]).toOption.map
    (fun d => (d.cumulative, d.total, [0, 1/4, 1/2, 1, 7/4].map d.sample)) =
    some ([0, 1/2, 1/2], 2, [1, 1, 3, 3, 3]) := by decide +kernel

/-- The errors: no weight, a negative weight, NaN, only zeros. -/
example : weightedIndexNew ([] : List (Option Rat)) = .error .noItem ∧
    weightedIndexNew [some (1 : Rat), some (-1)] = .error .invalidWeight ∧
    weightedIndexNew [some (1 : Rat), none] = .error .invalidWeight ∧
    weightedIndexNew [some (0 : Rat), some 0] = .error .allWeightsZero := by decide +kernel

/-- The second of the weights 1 and 3 is drawn three times out of four. -/
example : ∃ d, weightedIndexNew (([1, 3] : List ℝ).map some) = .ok d ∧ chance d 1 = ENNReal.ofReal (3 / 4) := by
  have hnn : ∀ w ∈ ([1, 3] : List ℝ), 0 ≤ w := by
    intro w hw
    rcases List.mem_cons.1 hw with rfl | hw
    · norm_num
    · rw [List.mem_singleton.1 hw]; norm_num
  have h := weightedIndexNew_ok.2 ⟨([1, 3] : List ℝ), rfl, by simp, hnn, by norm_num, rfl⟩
  refine ⟨_, h, ?_⟩
  rw [C98_weights h 1]
  norm_num

/-- A search of 12 iterations from the initial TicTacToe position: six children were visited once, three twice.  At
temperature 1/2 the last move, visited twice, is drawn with probability 4/18. -/
example : ∃ st t' rows row d, demoRun [1, 0] demoBatch 12 = .ok (st, t') ∧
    getProbTensorParallel (getRootNodes st) st = .ok rows ∧ rows[1]? = some row ∧
    weightedIndexNew (tempered (1 / 2) 9 row) = .ok d ∧ chance d 8 = ENNReal.ofReal (2 / 9) := by
  have hdec : ((demoRun [1, 0] demoBatch 12).toOption.bind fun r => (r.1[1]?).map fun n =>
      n.children.map fun c => (visitsAt r.1 c, ((r.1[c]?).bind (·.action) : Option Nat))) =
      some [(1, some 0), (1, some 1), (1, some 2), (1, some 3), (1, some 4), (1, some 5), (2, some 6), (2, some 7),
        (2, some 8)] := by decide +kernel
  have hm8 : (8 : Nat) ∈ TTT.getValidMoves TTT.new := by decide
  have hp : ∀ s ∈ demoBatch, s.player = 1 ∨ s.player = -1 := by decide
  obtain ⟨st, t', h, -⟩ := alphaMctsParallel_progress (Fl := demoFloats) (ttt_safeNet .debug) (net := demoNet) rfl
    (states := demoBatch) (List.cons_ne_nil _ _) hp (order := [1, 0]) (by decide) 12 demoTape
  obtain ⟨rows, hrows, hlen, -⟩ := C39_search (ttt_safeNet .debug) (ttt_coded .debug) rfl (List.cons_ne_nil _ _) hp (by decide) h
  have hl : 1 < rows.length := by rw [hlen]; decide
  obtain ⟨n, d, g1, g2, g3, g4, -⟩ := C98_search (ttt_safeNet .debug) (ttt_coded .debug) rfl (List.cons_ne_nil _ _) hp (by decide)
    (by decide) h hrows (j := 1) (s := TTT.new) rfl (List.getElem?_eq_getElem hl) (ms := TTT.getValidMoves TTT.new) rfl
    (List.ne_nil_of_mem hm8) (T := 1 / 2) (by norm_num)
  refine ⟨st, t', rows, rows[1], d, h, hrows, List.getElem?_eq_getElem hl, g3, ?_⟩
  obtain ⟨c, m, code, k1, k2, k3, k4, k5⟩ := g4 (8 : Nat) hm8
  have k4 : (Except.ok 8 : Res Nat) = .ok code := k4
  rw [← Except.ok.inj k4] at k5
  rw [k5]
  have hrun : demoRun [1, 0] demoBatch 12 = .ok (st, t') := h
  rw [hrun] at hdec
  have hdec : ((st[1]?).map fun n => n.children.map fun c => (visitsAt st c, ((st[c]?).bind (·.action) : Option Nat))) = _ := hdec
  rw [g1, Option.map_some] at hdec
  have hdec := Option.some.inj hdec
  have hvis : visitsAt st c = 2 := by
    have hm : (visitsAt st c, some (8 : Nat)) ∈ n.children.map fun c => (visitsAt st c, ((st[c]?).bind (·.action) : Option Nat)) :=
      List.mem_map.2 ⟨c, k1, by rw [k2]; exact congrArg (Prod.mk _) k3⟩
    rw [hdec] at hm
    simpa using hm
  have hall : n.children.map (visitsAt st) = [1, 1, 1, 1, 1, 1, 2, 2, 2] := by
    have := congrArg (List.map Prod.fst) hdec
    rw [List.map_map] at this
    exact this
  have hpowers : (n.children.map fun b => (visitsAt st b : ℝ) ^ (1 / (1 / 2) : ℝ)) =
      ([1, 1, 1, 1, 1, 1, 2, 2, 2] : List Nat).map fun (v : Nat) => (v : ℝ) ^ (1 / (1 / 2) : ℝ) := by
    rw [← hall, List.map_map]
    rfl
  unfold powerShare
  rw [hpowers, hvis]
  norm_num

end DieE.Props.Dr
