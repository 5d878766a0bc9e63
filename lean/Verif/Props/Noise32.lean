import Verif.Props.Noise
import Verif.Props.Shares32

/-!
# C113 in single precision

The weight of the noise in the priors of the roots when every operation of `apply_dirichlet` (noise.rs:33) and of
`turn_policy_to_probs_tensor_parallel` (utils.rs:60-72) is rounded, for every order in which libtorch adds up.
-/

namespace DieE.Props.No
open DieE DieE.Fp DieE.Mcts DieE.Props.A DieE.Props.S DieE.Props.Fn DieE.Props.Sa

/-- A mixture is rounded with a relative error of at most `2^-22` and an absolute one of at most `2^-148`. -/
theorem mix_near {eps : Rat} (h0 : 0 ≤ eps) (h1 : eps ≤ 1) (hr : Representable f32 eps) {p n : Num} {a b : Rat}
    (hp : Unit32 p a) (hn : Unit32 n b) : ∃ y, Entry (Fp.mixTensor eps p n) y ∧
      |y - ((1 - eps) * a + eps * b)| ≤ ((1 - eps) * a + eps * b) / 2 ^ 22 + 1 / 2 ^ 148 := by
  obtain ⟨⟨y, hy, -⟩, -⟩ := C136_mix h0 h1 hp hn
  refine ⟨y, hy, ?_⟩
  obtain ⟨rfl, ha0, ha1, -⟩ := hp
  obtain ⟨rfl, hb0, hb1, -⟩ := hn
  have hu := rest_unit h0 h1
  obtain ⟨x1, x2, x3, x4⟩ := mul_unit hu.2.1 hu.2.2.1 ha0 ha1
  obtain ⟨y1, y2, y3, y4⟩ := mul_unit h0 h1 hb0 hb1
  have hs0 : 0 ≤ rnd f32 (rnd f32 (1 - eps) * a) + rnd f32 (eps * b) := add_nonneg x2 y2
  have hyv : y = rnd f32 (rnd f32 (rnd f32 (1 - eps) * a) + rnd f32 (eps * b)) := by
    have e1 : Fp.mixTensor eps (.fin a) (.fin b) = Num.round f32 (rnd f32 (rnd f32 (1 - eps) * a) + rnd f32 (eps * b)) := by
      unfold Fp.mixTensor
      rw [hu.1, x1, y1]
      rfl
    have e2 := e1.symm.trans hy.val
    rw [round_nn hs0 (by linarith)] at e2
    exact (Num.fin.inj e2).symm
  have e1 : |1 - eps - rnd f32 (1 - eps)| ≤ (1 - eps) / 2 ^ 24 := by
    have := rnd_add rep_one (rep_neg hr)
    rw [← sub_eq_add_neg, abs_of_nonneg (a := 1 - eps) (by linarith)] at this
    exact this
  have e2 : |rnd f32 (1 - eps) * a - (1 - eps) * a| ≤ (1 - eps) * a / 2 ^ 24 := by
    rw [← sub_mul, abs_mul, abs_of_nonneg ha0, abs_sub_comm]
    have := mul_le_mul_of_nonneg_right e1 ha0
    rwa [div_mul_eq_mul_div] at this
  have e3 := rnd_share (mul_nonneg hu.2.1 ha0)
  have e4 := rnd_share (mul_nonneg h0 hb0)
  have e5 := rnd_add x4 y4
  rw [← hyv, abs_of_nonneg hs0] at e5
  have hα : 0 ≤ (1 - eps) * a := mul_nonneg (by linarith) ha0
  have hβ : 0 ≤ eps * b := mul_nonneg h0 hb0
  generalize rnd f32 (rnd f32 (1 - eps) * a) = A at *
  generalize rnd f32 (eps * b) = B at *
  generalize rnd f32 (1 - eps) * a = R at *
  generalize (1 - eps) * a = α at *
  generalize eps * b = β at *
  rw [abs_le] at *
  norm_num at *
  constructor <;> linarith [e2.1, e2.2, e3.1, e3.2, e4.1, e4.2, e5.1, e5.2]

theorem sum_near {L : List Nat} {E y : Nat → Rat} {d e : Rat} (h : ∀ k ∈ L, |y k - E k| ≤ E k * d + e) :
    |(L.map y).sum - (L.map E).sum| ≤ (L.map E).sum * d + L.length * e := by
  induction L with
  | nil => simp
  | cons k L ih =>
    have h1 := abs_le.1 (h k (List.mem_cons_self ..))
    have h2 := abs_le.1 (ih fun j hj => h j (List.mem_cons_of_mem _ hj))
    simp only [List.map_cons, List.sum_cons, List.length_cons, Nat.cast_add, Nat.cast_one]
    rw [abs_le]
    constructor
    · linarith [h1.1, h2.1]
    · linarith [h1.2, h2.2]

/-- Shares of nearly equal rows are nearly equal. -/
theorem quotient_near {a b A B : Rat} (hb0 : 0 ≤ b) (hb : b ≤ B) (hB : 0 < B) (h1 : |a - b| ≤ B * (1 / 2 ^ 22 + 1 / 2 ^ 47))
    (h2 : |A - B| ≤ B * (1 / 2 ^ 22 + 1 / 2 ^ 25)) : 0 < A ∧ |a / A - b / B| ≤ 1 / 2 ^ 20 := by
  have hA : B * (1 - 1 / 2 ^ 21) ≤ A := by
    have := (abs_le.1 h2).1
    norm_num at *
    linarith
  have hA0 : 0 < A := lt_of_lt_of_le (mul_pos hB (by norm_num)) hA
  refine ⟨hA0, ?_⟩
  have e : a / A - b / B = ((a - b) * B - b * (A - B)) / (A * B) := by field_simp; ring
  rw [e, abs_div, abs_of_pos (mul_pos hA0 hB), div_le_iff₀ (mul_pos hA0 hB)]
  have e1 : |(a - b) * B - b * (A - B)| ≤ |a - b| * B + b * |A - B| := by
    refine le_trans (abs_sub _ _) ?_
    rw [abs_mul, abs_mul, abs_of_pos hB, abs_of_nonneg hb0]
  have e2 : |a - b| * B ≤ B * (1 / 2 ^ 22 + 1 / 2 ^ 47) * B := mul_le_mul_of_nonneg_right h1 hB.le
  have e3 : b * |A - B| ≤ B * (B * (1 / 2 ^ 22 + 1 / 2 ^ 25)) := mul_le_mul hb h2 (abs_nonneg _) hB.le
  have e4 : B * (1 - 1 / 2 ^ 21) * B ≤ A * B := mul_le_mul_of_nonneg_right hA hB.le
  have hBB : 0 < B * B := mul_pos hB hB
  have f2 : B * (1 / 2 ^ 22 + 1 / 2 ^ 47) * B = B * B * (1 / 2 ^ 22 + 1 / 2 ^ 47) := by ring
  have f3 : B * (B * (1 / 2 ^ 22 + 1 / 2 ^ 25)) = B * B * (1 / 2 ^ 22 + 1 / 2 ^ 25) := by ring
  have f4 : B * (1 - 1 / 2 ^ 21) * B = B * B * (1 - 1 / 2 ^ 21) := by ring
  rw [f2] at e2
  rw [f3] at e3
  rw [f4] at e4
  generalize B * B = X at *
  generalize A * B = Y at *
  norm_num at *
  linarith

/-- C113 for one row in single precision: as `C113_prior`, up to rounding errors of at most `(m + 1) / (2^24 - m) + 2^-19` for
`m` legal moves. -/
theorem C113_prior_single {N : Nat} (hN : N < 2 ^ 22) {T : SumTree} (hT : T.codes.Perm (List.range N)) {eps : Rat}
    (h0 : 0 ≤ eps) (h1 : eps ≤ 1 / 2) (hr : Representable f32 eps) {p noise : Nat → Num} {q z : Nat → Rat}
    (hp : ∀ c < N, Unit32 (p c) (q c)) (hz : ∀ c < N, Unit32 (noise c) (z c)) {codes : List Nat} (hnd : codes.Nodup)
    (hlt : ∀ c ∈ codes, c < N) (hP : 1 / 2 ^ 100 ≤ (codes.map q).sum) {c : Nat} (hc : c ∈ codes) :
    ∃ x : Rat, Fp.priorBatch T (fun c => Fp.mixTensor eps (p c) (noise c)) codes c = .fin x ∧
      |x - ((1 - share eps (codes.map q).sum (codes.map z).sum) * (q c / (codes.map q).sum) +
        share eps (codes.map q).sum (codes.map z).sum * (z c / (codes.map z).sum))| ≤
        tolerance codes.length + 1 / 2 ^ 19 := by
  have hent : ∀ c, ∃ y, c < N → Entry (Fp.mixTensor eps (p c) (noise c)) y ∧
      |y - ((1 - eps) * q c + eps * z c)| ≤ ((1 - eps) * q c + eps * z c) * (1 / 2 ^ 22) + 1 / 2 ^ 148 := by
    intro c
    by_cases hcN : c < N
    · obtain ⟨y, h2, h3⟩ := mix_near h0 (le_trans h1 (by norm_num)) hr (hp c hcN) (hz c hcN)
      exact ⟨y, fun _ => ⟨h2, by rw [mul_one_div]; exact h3⟩⟩
    · exact ⟨0, fun h => absurd h hcN⟩
  choose y hy using hent
  have hlen : codes.length ≤ N := by
    have := (kept_filter hnd hlt).length_eq
    have h2 := List.length_filter_le (· ∈ codes) (List.range N)
    rw [List.length_range] at h2
    omega
  have hPpos : 0 < (codes.map q).sum := lt_of_lt_of_le (by positivity) hP
  have hE0 : ∀ k ∈ codes, 0 ≤ (1 - eps) * q k + eps * z k := fun k hk =>
    add_nonneg (mul_nonneg (by linarith) (hp k (hlt k hk)).2.1) (mul_nonneg h0 (hz k (hlt k hk)).2.1)
  have hZ : 0 ≤ (codes.map z).sum := List.sum_nonneg (by
    intro x hx
    obtain ⟨d, hd, rfl⟩ := List.mem_map.1 hx
    exact (hz d (hlt d hd)).2.1)
  have hsumE : (codes.map fun k => (1 - eps) * q k + eps * z k).sum =
      (1 - eps) * (codes.map q).sum + eps * (codes.map z).sum := mixed_sum ..
  have hB : 1 / 2 ^ 101 ≤ (codes.map fun k => (1 - eps) * q k + eps * z k).sum := by
    rw [hsumE]
    have e1 := mul_nonneg h0 hZ
    have e2 : 1 / 2 * (codes.map q).sum ≤ (1 - eps) * (codes.map q).sum :=
      mul_le_mul_of_nonneg_right (by linarith) hPpos.le
    norm_num at *
    linarith
  have hB0 : 0 < (codes.map fun k => (1 - eps) * q k + eps * z k).sum := lt_of_lt_of_le (by positivity) hB
  have hle : ∀ k ∈ codes, (1 - eps) * q k + eps * z k ≤ (codes.map fun k => (1 - eps) * q k + eps * z k).sum := by
    intro k hk
    refine List.single_le_sum ?_ _ (List.mem_map.2 ⟨k, hk, rfl⟩)
    intro x hx
    obtain ⟨d, hd, rfl⟩ := List.mem_map.1 hx
    exact hE0 d hd
  have hall := sum_near (L := codes) (E := fun k => (1 - eps) * q k + eps * z k) (y := y) (d := 1 / 2 ^ 22) (e := 1 / 2 ^ 148)
    fun k hk => (hy k (hlt k hk)).2
  have hm : (codes.length : Rat) ≤ 2 ^ 22 := by exact_mod_cast (by omega : codes.length ≤ 2 ^ 22)
  have hone := (hy c (hlt c hc)).2
  obtain ⟨hA, hnear⟩ := quotient_near (a := y c) (b := (1 - eps) * q c + eps * z c) (A := (codes.map y).sum)
    (B := (codes.map fun k => (1 - eps) * q k + eps * z k).sum) (hE0 c hc) (hle c hc) hB0 (by
      refine le_trans hone ?_
      have := hle c hc
      generalize (codes.map fun k => (1 - eps) * q k + eps * z k).sum = B at *
      norm_num at *
      linarith) (by
      refine le_trans hall ?_
      generalize (codes.map fun k => (1 - eps) * q k + eps * z k).sum = B at *
      have : (codes.length : Rat) * (1 / 2 ^ 148) ≤ 2 ^ 22 * (1 / 2 ^ 148) := mul_le_mul_of_nonneg_right hm (by positivity)
      norm_num at *
      linarith)
  have hpos : ∃ k ∈ codes, 0 < y k := by
    by_contra hno
    push_neg at hno
    have : (codes.map y).sum = 0 := List.sum_eq_zero (by
      intro x hx
      obtain ⟨d, hd, rfl⟩ := List.mem_map.1 hx
      exact le_antisymm (hno d hd) (hy d (hlt d hd)).1.nonneg)
    linarith
  obtain ⟨x, hx⟩ := C136_batch (by omega) hT (q := y) (codes := codes) (pol := fun c => Fp.mixTensor eps (p c) (noise c))
    ⟨fun k hk => (hy k hk).1, hnd, hlt, hpos⟩
  refine ⟨x c, hx.val c (hlt c hc), ?_⟩
  have hform : (1 - share eps (codes.map q).sum (codes.map z).sum) * (q c / (codes.map q).sum) +
      share eps (codes.map q).sum (codes.map z).sum * (z c / (codes.map z).sum) =
      ((1 - eps) * q c + eps * z c) / (codes.map fun k => (1 - eps) * q k + eps * z k).sum := by
    rw [hsumE] at hB0 ⊢
    have hz0 : (codes.map z).sum = 0 → z c = 0 := fun h => zero_of_sum codes (fun d hd => (hz d (hlt d hd)).2.1) h c hc
    generalize (codes.map q).sum = P at *
    generalize (codes.map z).sum = Z at *
    unfold share
    rcases hZ.lt_or_eq with hZ | hZ
    · field_simp
      ring
    · subst hZ
      have : (0 : Rat) < 1 - eps := by linarith
      rw [hz0 rfl]
      field_simp
      ring
  rw [hform]
  have h2 := abs_le.1 (hx.near c hc)
  have h3 := abs_le.1 hnear
  have h4 : y c / (codes.map y).sum ≤ 1 := by
    rw [div_le_one hA]
    refine List.single_le_sum ?_ _ (List.mem_map.2 ⟨c, hc, rfl⟩)
    intro x hx
    obtain ⟨d, hd, rfl⟩ := List.mem_map.1 hx
    exact (hy d (hlt d hd)).1.nonneg
  have h5 : 0 ≤ tolerance codes.length := by
    unfold tolerance
    refine div_nonneg (by positivity) ?_
    linarith [show (2 : Rat) ^ 22 < 2 ^ 24 by norm_num]
  have h6 : tolerance codes.length * (y c / (codes.map y).sum) ≤ tolerance codes.length :=
    mul_le_of_le_one_right h5 h4
  generalize ((1 - eps) * q c + eps * z c) / (codes.map fun k => (1 - eps) * q k + eps * z k).sum = e at *
  generalize tolerance codes.length * (y c / (codes.map y).sum) = f at *
  generalize y c / (codes.map y).sum = w at *
  rw [abs_le]
  norm_num at *
  constructor <;> linarith [h2.1, h2.2, h3.1, h3.2]

variable {G : Game}

/-- C113, for the batched search in single precision: from the start to the end of the search the priors of the children of a
root are those of `C113_search_partial`, with weight `share` for the noise, up to `(m + 1) / (2^24 - m) + 2^-19` for `m` legal
moves, if the policy gives the legal moves at least `2^-100`. -/
theorem C113_single_partial {R : G.S → Prop} (hc : Coded G R) {c : Num} {ln : Num → Num} {net : Mcts.Net (single c ln)} {eps : Rat}
    (C : Computed G.actionSpace eps net) (hA : G.actionSpace < 2 ^ 22) (hrep : Representable f32 eps)
    {states : List G.S} (hR : ∀ s ∈ states, R s) {order : List Nat} (ho : order.Perm (List.range states.length))
    {iterations : Nat} {t t' : Tape} {st : Store G (single c ln)}
    (h : alphaMctsParallel net order states iterations [] t = .ok (st, t')) :
    ∃ (ts : List (Tensor Int)) (x : Tensor Int) (r : Nat) (z : Nat → Rat), states.mapM G.tensor = .ok ts ∧
      batchTensor ts = .ok x ∧ (∀ k < G.actionSpace, net.noise r k = Num.fin (z k)) ∧
      ∀ (g : Nat) (s : G.S), states[g]? = some s →
        ∃ (n : Node G (single c ln)) (ms : List G.Mv) (codes : List Nat) (q : Nat → Rat), st[g]? = some n ∧
          G.moves s = .ok ms ∧ ms.mapM (G.encode s) = .ok codes ∧
          (∀ k < G.actionSpace, net.policy x g k = Num.fin (q k)) ∧
          (1 / 2 ^ 100 ≤ (codes.map q).sum → ∀ i ∈ n.children, ∃ (m : Node G (single c ln)) (a : G.Mv) (code : Nat) (w : Rat),
            st[i]? = some m ∧ m.action = some a ∧ G.encode s a = .ok code ∧ m.policy = Num.fin w ∧
            |w - ((1 - share eps (codes.map q).sum (codes.map z).sum) * (q code / (codes.map q).sum) +
              share eps (codes.map q).sum (codes.map z).sum * (z code / (codes.map z).sum))| ≤
              tolerance codes.length + 1 / 2 ^ 19) := by
  obtain ⟨ts, x, r, h1, h2, h3⟩ := root_priors ho h
  have hz : ∀ k, ∃ z, k < G.actionSpace → Unit32 (net.noise r k) z := by
    intro k
    by_cases hk : k < G.actionSpace
    · obtain ⟨z, hz⟩ := C.noise r k hk
      exact ⟨z, fun _ => hz⟩
    · exact ⟨0, fun h => absurd h hk⟩
  choose z hz using hz
  refine ⟨ts, x, r, z, h1, h2, fun k hk => (hz k hk).1, fun g s hg => ?_⟩
  obtain ⟨n, ms, codes, k1, k2, k3, k4, k5⟩ := h3 g s hg
  have hq : ∀ k, ∃ q, k < G.actionSpace → Unit32 (net.policy x g k) q := by
    intro k
    by_cases hk : k < G.actionSpace
    · obtain ⟨q, hq⟩ := C.policy x g k hk
      exact ⟨q, fun _ => hq⟩
    · exact ⟨0, fun h => absurd h hk⟩
  choose q hq using hq
  have hRs := hR s (List.mem_of_getElem? hg)
  have hcodes : codes = ms.map (codeOf s) := by
    have : ms.mapM (G.encode s) = .ok (ms.map (codeOf s)) := by
      apply mapM_eq_map
      intro a ha
      obtain ⟨c, e, -⟩ := hc.code s ms a hRs k3 ha
      unfold codeOf
      rw [e]
    rw [k4] at this
    exact Except.ok.inj this
  have hN : ∀ k ∈ codes, k < G.actionSpace := by
    intro k hcm
    rw [hcodes] at hcm
    obtain ⟨a, ha, rfl⟩ := List.mem_map.1 hcm
    obtain ⟨c, e1, e2, -⟩ := hc.code s ms a hRs k3 ha
    unfold codeOf
    rw [e1]
    exact e2
  have hnd : codes.Nodup := by
    rw [hcodes]
    exact nodup_map_codeOf hc hRs k3 (hc.nodup s ms hRs k3) fun _ h => h
  have f := alphaMctsParallel_forest ho h
  refine ⟨n, ms, codes, q, k1, k3, k4, fun k hk => (hq k hk).1, fun hP i hi => ?_⟩
  obtain ⟨m, a, code, e1, e2, e3, e4⟩ := k5 i hi
  have hmem : code ∈ codes := by
    obtain ⟨a', ms', p1, p2, p3, -⟩ := child_legal f.wf k1 hi e1
    rw [e2] at p1
    cases p1
    rw [k2, k3] at p2
    cases p2
    rw [hcodes]
    refine List.mem_map.2 ⟨a, p3, ?_⟩
    unfold codeOf
    rw [e3]
  obtain ⟨T, hT, eT⟩ := C.batch (fun c => net.mixTensor (net.policy x g c) (net.noise r c)) codes
  obtain ⟨w, w1, w2⟩ := C113_prior_single hA hT C.low C.half hrep (p := net.policy x g) (noise := net.noise r) hq hz hnd hN hP hmem
  refine ⟨m, a, code, w, e1, e2, e3, ?_, w2⟩
  rw [e4, eT]
  have : (fun c => net.mixTensor (net.policy x g c) (net.noise r c)) =
      fun c => Fp.mixTensor eps (net.policy x g c) (net.noise r c) := funext fun c => C.mix _ _
  rw [this]
  exact w1

/-- The example of `C136_search` meets the hypotheses: the games of TicTacToe, the network `plainNet` with weight 1/4 and a
policy which gives any set of at least one code more than `2^-100`. -/
example (ln : Num → Num) : Coded (TTT.game .debug) (fun s => s.player = 1 ∨ s.player = -1) ∧
    Computed (TTT.game .debug).actionSpace (1 / 4) (plainNet ln) ∧ (TTT.game .debug).actionSpace < 2 ^ 22 ∧
    Representable f32 (1 / 4) ∧ (1 : Rat) / 2 ^ 100 ≤ ([7, 8].map fun k => if k = 0 then (1 : Rat) / 2 else 1 / 16).sum :=
  ⟨ttt_coded _, plainNet_computed ln, by decide, ⟨1, -2, by norm_num [f32], by norm_num [f32], by norm_num⟩, by norm_num⟩

end DieE.Props.No
