import Verif.Props.Draw64Facts

/-! # C107: the draw of a move in double precision -/

namespace DieE.Props.Dw
open DieE DieE.Fp DieE.Props.Fn DieE.Text

/-- A number that `f64` can hold (the model has more finite numbers). -/
def Held (φ : Format) : Num → Prop
  | .fin q => Representable φ q ∧ |q| < 2 ^ φ.high
  | _ => True

/-! ## When the draw is possible -/

/-- The total of `l`, starting with `t`. -/
def total (t : Rat) (l : List Rat) : Rat := l.foldl (fun t w => rnd f64 (t + w)) t

theorem total_ge {l : List Rat} {t : Rat} (ht : Representable f64 t) (h : ∀ w ∈ l, 0 ≤ w) : t ≤ total t l := by
  induction l generalizing t with
  | nil => exact le_refl _
  | cons w l ih =>
    have h1 := h w (List.mem_cons_self ..)
    refine le_trans ?_ (ih (t := rnd f64 (t + w)) (rnd_representable hp _) fun v hv => h v (List.mem_cons_of_mem _ hv))
    refine rep_le (K := Rat) hp ht ?_
    rw [Rat.cast_id]
    linarith

theorem accumulate_of {l : List Rat} {acc : List Num} {t : Rat} (h0 : 0 ≤ t) (h : ∀ w ∈ l, 0 ≤ w)
    (hT : total t l < 2 ^ f64.high) :
    accumulate64 acc (.fin t) (l.map .fin) = .ok (acc ++ (List.range l.length).map (fun k => .fin (total t (l.take k))), .fin (total t l)) := by
  induction l generalizing acc t with
  | nil => simp [accumulate64, total]
  | cons w l ih =>
    have h1 := h w (List.mem_cons_self ..)
    have h2 : ∀ v ∈ l, 0 ≤ v := fun v hv => h v (List.mem_cons_of_mem _ hv)
    have hlt : rnd f64 (t + w) < 2 ^ f64.high :=
      lt_of_le_of_lt (total_ge (rnd_representable hp _) h2) hT
    have hnn : 0 ≤ rnd f64 (t + w) := rep_le (K := Rat) hp rep0 (by rw [Rat.cast_zero]; linarith)
    rw [List.map_cons, accumulate64, if_pos (le_fin.2 h1)]
    have e : Num.add f64 (.fin t) (.fin w) = .fin (rnd f64 (t + w)) := round_small (by linarith) (le_refl _) hlt
    rw [e, ih hnn h2 hT, List.length_cons, List.range_succ_eq_map]
    simp [total, Function.comp_def]

theorem le_zero_num {w : Num} (h : Num.le (.fin 0) w = true) : w = .inf false ∨ ∃ q, w = .fin q ∧ 0 ≤ q := by
  cases w with
  | fin q => exact .inr ⟨q, rfl, le_fin.1 h⟩
  | inf s => cases s with
    | true => cases h
    | false => exact .inl rfl
  | nan => cases h

theorem accumulate_inv {ws c : List Num} {acc : List Num} {T : Num} {q : Rat} (ht : Num.le (.fin 0) T = true)
    (h : accumulate64 acc T ws = .ok (c, .fin q)) :
    ∃ t l, T = .fin t ∧ 0 ≤ t ∧ ws = l.map .fin ∧ (∀ w ∈ l, 0 ≤ w) ∧ q = total t l ∧ (l ≠ [] → q < 2 ^ f64.high) := by
  induction ws generalizing acc T with
  | nil =>
    rw [accumulate64] at h
    injection h with h
    injection h with h1 h2
    rw [h2] at ht
    exact ⟨q, [], h2, le_fin.1 ht, rfl, by simp, rfl, fun h => absurd rfl h⟩
  | cons w ws ih =>
    rw [accumulate64] at h
    split at h
    · rename_i hw
      have key : ∀ t' l, Num.add f64 T w = .fin t' → 0 ≤ t' → ws = l.map .fin → (∀ w ∈ l, 0 ≤ w) → q = total t' l → (l ≠ [] → q < 2 ^ f64.high) →
          ∃ t l, T = .fin t ∧ 0 ≤ t ∧ w :: ws = l.map .fin ∧ (∀ w ∈ l, 0 ≤ w) ∧ q = total t l ∧ (l ≠ [] → q < 2 ^ f64.high) := by
        intro t' l e1 e2 e3 e4 e5 e6
        rcases le_zero_num ht with rfl | ⟨t, rfl, ht0⟩
        · rcases le_zero_num hw with rfl | ⟨v, rfl, hv0⟩ <;> cases e1
        · rcases le_zero_num hw with rfl | ⟨v, rfl, hv0⟩
          · cases e1
          · have e7 : Num.round f64 (t + v) = .fin t' := e1
            unfold Num.round at e7
            split at e7
            · rename_i hlt
              injection e7 with e7
              refine ⟨t, v :: l, rfl, ht0, by rw [e3]; rfl, ?_, ?_, fun _ => ?_⟩
              · intro x hx
                rcases List.mem_cons.1 hx with rfl | hx
                · exact hv0
                · exact e4 x hx
              · rw [e5, ← e7]; rfl
              · cases l with
                | nil =>
                  rw [e5, total, List.foldl_nil, ← e7]
                  exact lt_of_le_of_lt (le_abs_self _) hlt
                | cons a l => exact e6 (by simp)
            · cases e7
      have hadd : Num.le (.fin 0) (Num.add f64 T w) = true := by
        rcases le_zero_num ht with rfl | ⟨t, rfl, ht0⟩
        · rcases le_zero_num hw with rfl | ⟨v, rfl, hv0⟩ <;> rfl
        · rcases le_zero_num hw with rfl | ⟨v, rfl, hv0⟩
          · rfl
          · show Num.le (.fin 0) (Num.round f64 (t + v)) = true
            unfold Num.round
            split
            · refine le_fin.2 (rep_le (K := Rat) hp rep0 ?_)
              rw [Rat.cast_zero]
              linarith
            · rw [decide_eq_false (by linarith)]
              rfl
      obtain ⟨t', l, e1, e2, e3, e4, e5, e6⟩ := ih hadd h
      exact key t' l e1 e2 e3 e4 e5 e6
    · cases h

theorem total_run {l : List Rat} : total 0 l = run l l.length := by
  unfold run
  rw [List.take_length]
  rfl

theorem total_cons {w : Rat} (hw : Representable f64 w) (l : List Rat) : total w l = total 0 (w :: l) := by
  show _ = total (rnd f64 (0 + w)) l
  rw [zero_add, exact hw]

/-- C107 (when the draw is possible): `WeightedIndex::new` succeeds exactly on non-empty lists of finite, non-negative
weights, not all zero, whose total in `f64` is finite; for all others the program panics. -/
theorem C107_new {ws : List Num} (hh : ∀ w ∈ ws, Held f64 w) (d : Draw64) :
    drawNew ws = .ok d ↔ ∃ l : List Rat, ws = l.map .fin ∧ (∀ w ∈ l, 0 ≤ w) ∧ (∃ w ∈ l, 0 < w) ∧ run l l.length < 2 ^ f64.high ∧
      d = ⟨(List.range (l.length - 1)).map (fun k => .fin (run l (k + 1))), .fin (run l l.length), .fin (scaleOf (run l l.length))⟩ := by
  cases ws with
  | nil =>
    constructor
    · intro h; cases h
    · rintro ⟨l, h1, -, ⟨w, hw, -⟩, -⟩
      rw [List.map_eq_nil_iff.1 h1.symm] at hw
      cases hw
  | cons w ws =>
    have pos : ∀ l : List Rat, (∀ w ∈ l, 0 ≤ w) → (∀ w ∈ l, Representable f64 w) → ((∃ w ∈ l, 0 < w) ↔ run l l.length ≠ 0) := by
      intro l h hr
      constructor
      · rintro ⟨w, hw, hw0⟩
        obtain ⟨k, hk, rfl⟩ := List.getElem_of_mem hw
        have h1 := run_ge h hr (List.getElem?_eq_getElem hk)
        have h2 := run_mono h (show k + 1 ≤ l.length by omega)
        exact ne_of_gt (by linarith)
      · intro hne
        by_contra hno
        refine hne (run_all_zero (fun v hv => le_antisymm (not_lt.1 fun h0 => hno ⟨v, hv, h0⟩) (h v hv)) _)
    have hcum : ∀ (v : Rat) (l : List Rat), Representable f64 v →
        (List.range l.length).map (fun k => Num.fin (total v (l.take k))) =
          (List.range ((v :: l).length - 1)).map (fun k => .fin (run (v :: l) (k + 1))) := by
      intro v l hv
      simp only [List.length_cons, Nat.add_sub_cancel]
      refine List.map_congr_left fun k _ => ?_
      rw [total_cons hv]
      rfl
    rw [drawNew]
    constructor
    · intro h
      split at h
      · rename_i hw
        cases ha : accumulate64 [] w ws with
        | error e => rw [ha] at h; cases h
        | ok r =>
          obtain ⟨c, T⟩ := r
          rw [ha] at h
          replace h : (if T = .fin 0 then (.error .unwrapNone : Res Draw64) else
            (uniformNew T >>= fun scale => pure ⟨c, T, scale⟩)) = .ok d := h
          split at h
          · cases h
          · rename_i hT
            cases hu : uniformNew T with
            | error e => rw [hu] at h; cases h
            | ok s =>
              cases T with
              | fin q =>
                obtain ⟨t, l, e1, e2, e3, e4, e5, e6⟩ := accumulate_inv hw ha
                subst e1 e3 e5
                have hv := hh (.fin t) (List.mem_cons_self ..)
                have hq : run (t :: l) (t :: l).length < 2 ^ f64.high := by
                  rw [← total_run, ← total_cons hv.1]
                  by_cases hl : l = []
                  · rw [hl]
                    exact lt_of_le_of_lt (le_abs_self _) hv.2
                  · exact e6 hl
                have hnn : ∀ v ∈ t :: l, 0 ≤ v := by
                  intro v hv
                  rcases List.mem_cons.1 hv with rfl | hv
                  · exact e2
                  · exact e4 v hv
                have hr : ∀ v ∈ t :: l, Representable f64 v := by
                  intro v hv
                  exact (hh (.fin v) (by
                    rcases List.mem_cons.1 hv with rfl | hv
                    · exact List.mem_cons_self ..
                    · exact List.mem_cons_of_mem _ (List.mem_map.2 ⟨v, hv, rfl⟩))).1
                have hne : run (t :: l) (t :: l).length ≠ 0 := by
                  rw [← total_run, ← total_cons hv.1]
                  intro h0
                  exact hT (by rw [h0])
                have htot : total t l = run (t :: l) (t :: l).length := by rw [← total_run, ← total_cons hv.1]
                rw [hu] at h
                rw [htot, uniformNew_ok (lt_of_le_of_ne (run_nonneg hnn _) (Ne.symm hne)) (run_rep _ _) hq] at hu
                injection hu with hu
                rw [accumulate_of e2 e4 (by rw [htot]; exact hq), List.nil_append, hcum t l hv.1] at ha
                injection ha with ha
                injection ha with ha1 ha2
                injection h with h
                refine ⟨t :: l, rfl, hnn, (pos _ hnn hr).2 hne, hq, ?_⟩
                rw [← h, ha1, htot, hu]
              | inf s' =>
                exfalso
                cases s' with
                | false => cases hu
                | true => cases hu
              | nan => cases hu
      · cases h
    · rintro ⟨l, h1, h2, h3, h4, rfl⟩
      cases l with
      | nil => cases h1
      | cons v l =>
        rw [List.map_cons] at h1
        injection h1 with h1 h1'
        subst h1 h1'
        have hv := hh (.fin v) (List.mem_cons_self ..)
        have hr : ∀ x ∈ v :: l, Representable f64 x := by
          intro x hx
          exact (hh (.fin x) (by
            rcases List.mem_cons.1 hx with rfl | hx
            · exact List.mem_cons_self ..
            · exact List.mem_cons_of_mem _ (List.mem_map.2 ⟨x, hx, rfl⟩))).1
        have htot : total v l = run (v :: l) (v :: l).length := by rw [← total_run, ← total_cons hv.1]
        have hne := (pos _ h2 hr).1 h3
        rw [if_pos (le_fin.2 (h2 v (List.mem_cons_self ..))),
          accumulate_of (h2 v (List.mem_cons_self ..)) (fun x hx => h2 x (List.mem_cons_of_mem _ hx)) (by rw [htot]; exact h4)]
        show (if Num.fin (total v l) = .fin 0 then (.error .unwrapNone : Res Draw64) else _) = _
        rw [htot, if_neg (by intro h; injection h with h; exact hne h),
          uniformNew_ok (lt_of_le_of_ne (run_nonneg h2 _) (Ne.symm hne)) (run_rep _ _) h4, List.nil_append, hcum v l hv.1]
        rfl

/-! ## Which index is drawn -/

/-- The number drawn from the upper 52 bits. -/
def point (T : Rat) (k : Nat) : Rat := rnd f64 ((k : Rat) / 2 ^ 52 * scaleOf T)

theorem point_range {T : Rat} (h0 : 0 < T) (hr : Representable f64 T) {k : Nat} (hk : k < 2 ^ 52) : 0 ≤ point T k ∧ point T k < T := by
  obtain ⟨h1, h2, h3, h4⟩ := scale_spec h0 hr
  constructor
  · refine rep_le (K := Rat) hp rep0 ?_
    rw [Rat.cast_zero]
    positivity
  · refine lt_of_le_of_lt (rnd_mono hp ?_) h4
    rw [mul_comm]
    refine mul_le_mul_of_nonneg_left ?_ h2
    have : (k : Rat) ≤ 2 ^ 52 - 1 := by
      have : k + 1 ≤ 2 ^ 52 := hk
      have : ((k + 1 : Nat) : Rat) ≤ ((2 ^ 52 : Nat) : Rat) := by exact_mod_cast this
      push_cast at this ⊢
      linarith
    rw [div_le_iff₀ (by norm_num)]
    norm_num at this ⊢
    linarith

theorem bisect_congr (p q : Nat → Bool) (a b : Nat) (h : ∀ j, a ≤ j → j < b → p j = q j) : Mcts.bisect p a b = Mcts.bisect q a b := by
  induction hn : b - a using Nat.strongRecOn generalizing a b with
  | ind n ih =>
    unfold Mcts.bisect
    by_cases hab : a < b
    · rw [if_pos hab, if_pos hab, h _ (by omega) (by omega),
        ih (b - (a + (b - a) / 2 + 1)) (by omega) _ _ (fun j k1 k2 => h j (by omega) k2) rfl,
        ih (a + (b - a) / 2 - a) (by omega) _ _ (fun j k1 k2 => h j k1 (by omega)) rfl]
    · rw [if_neg hab, if_neg hab]

theorem bisect_iff {b : Nat → Rat} (hb : ∀ i j, i ≤ j → b i ≤ b j) {n : Nat} {x : Rat} (hn : 0 < n) (h0 : b 0 ≤ x) (h1 : x < b n) (i : Nat) :
    Mcts.bisect (fun j => decide (b (j + 1) ≤ x)) 0 (n - 1) = i ↔ i < n ∧ b i ≤ x ∧ x < b (i + 1) := by
  obtain ⟨-, k2, k3, k4⟩ := Mcts.bisect_spec (less := fun j => decide (b (j + 1) ≤ x)) (by
    intro i j hij h
    exact decide_eq_true (le_trans (hb _ _ (by omega)) (of_decide_eq_true h))) 0 (n - 1) (by omega)
  generalize Mcts.bisect (fun j => decide (b (j + 1) ≤ x)) 0 (n - 1) = r at k2 k3 k4
  have hr : b r ≤ x ∧ x < b (r + 1) := by
    constructor
    · cases r with
      | zero => exact h0
      | succ r => exact of_decide_eq_true (k3 r (by omega) (by omega))
    · by_cases hlt : r < n - 1
      · exact not_le.1 (of_decide_eq_false (k4 r (Nat.le_refl _) hlt))
      · rw [show r + 1 = n by omega]; exact h1
  constructor
  · rintro rfl
    exact ⟨by omega, hr⟩
  · rintro ⟨g1, g2, g3⟩
    by_contra hne
    rcases Nat.lt_or_gt_of_ne hne with hlt | hlt
    · exact absurd (lt_of_lt_of_le hr.2 (hb _ _ (show r + 1 ≤ i by omega))) (not_lt.2 g2)
    · exact absurd (lt_of_lt_of_le g3 (hb _ _ (show i + 1 ≤ r by omega))) (not_lt.2 hr.1)

/-- The index drawn from the bits `r` is the one whose interval of running totals contains the drawn number. -/
theorem sample_iff {l : List Rat} {d : Draw64} (hh : ∀ w ∈ l, Held f64 (.fin w)) (h : drawNew (l.map .fin) = .ok d)
    {r : Nat} (hr : r < 2 ^ 64) (i : Nat) :
    d.sample r = i ↔ i < l.length ∧ run l i ≤ point (run l l.length) (r / 2 ^ 12) ∧ point (run l l.length) (r / 2 ^ 12) < run l (i + 1) := by
  obtain ⟨l', e1, e2, e3, e4, rfl⟩ := (C107_new (by
    intro w hw
    obtain ⟨v, hv, rfl⟩ := List.mem_map.1 hw
    exact hh v hv) d).1 h
  obtain rfl : l = l' := List.map_injective_iff.2 (fun a b h => by injection h) e1
  have hrep : ∀ w ∈ l, Representable f64 w := fun w hw => (hh w hw).1
  have hlen : 0 < l.length := by
    obtain ⟨w, hw, -⟩ := e3
    exact List.length_pos_of_mem hw
  have hT : 0 < run l l.length := by
    obtain ⟨w, hw, hw0⟩ := e3
    obtain ⟨k, hk, rfl⟩ := List.getElem_of_mem hw
    have h1 := run_ge e2 hrep (List.getElem?_eq_getElem hk)
    have h2 := run_mono e2 (show k + 1 ≤ l.length by omega)
    linarith
  have hk : r / 2 ^ 12 < 2 ^ 52 := by omega
  obtain ⟨p1, p2⟩ := point_range hT (run_rep _ _) hk
  have hx : uniformSample (.fin (scaleOf (run l l.length))) r = .fin (point (run l l.length) (r / 2 ^ 12)) := by
    obtain ⟨h1, h2, h3, -⟩ := scale_spec hT (run_rep _ _)
    refine times h2 h1 h3 e4 (div_nonneg (Nat.cast_nonneg _) (by norm_num)) ?_
    rw [div_le_one (by norm_num)]
    have := (Nat.cast_le (α := Rat)).2 hk.le
    rwa [Nat.cast_pow, Nat.cast_ofNat] at this
  rw [← bisect_iff (b := run l) (fun i j hij => run_mono e2 hij) hlen (by rw [run_zero]; exact p1) p2 i]
  unfold Draw64.sample
  rw [hx]
  simp only [List.length_map, List.length_range]
  rw [bisect_congr _ (fun j => decide (run l (j + 1) ≤ point (run l l.length) (r / 2 ^ 12)))]
  intro j _ hj
  simp [List.getD_eq_getElem?_getD, hj, Num.le]

/-- C107 (no move without weight): whatever bits the generator returns, the drawn index has positive weight. -/
theorem C107_positive {l : List Rat} {d : Draw64} (hh : ∀ w ∈ l, Held f64 (.fin w)) (h : drawNew (l.map .fin) = .ok d)
    {r : Nat} (hr : r < 2 ^ 64) : ∃ w, l[d.sample r]? = some w ∧ 0 < w := by
  obtain ⟨g1, g2, g3⟩ := (sample_iff hh h hr _).1 rfl
  obtain ⟨l', e1, e2, -⟩ := (C107_new (by
    intro w hw
    obtain ⟨v, hv, rfl⟩ := List.mem_map.1 hw
    exact hh v hv) d).1 h
  obtain rfl : l = l' := List.map_injective_iff.2 (fun a b h => by injection h) e1
  refine ⟨l[d.sample r], List.getElem?_eq_getElem g1, ?_⟩
  refine lt_of_le_of_ne (e2 _ (List.getElem_mem g1)) ?_
  intro h0
  have := run_succ (List.getElem?_eq_getElem g1)
  rw [← h0, add_zero, exact (run_rep _ _)] at this
  linarith

/-! ## How often each index is drawn -/

theorem add_err {a b : Rat} (ha : Representable f64 a) (hb : Representable f64 b) (ha0 : 0 ≤ a) (hb0 : 0 ≤ b) :
    |rnd f64 (a + b) - (a + b)| ≤ rnd f64 (a + b) / 2 ^ 52 := by
  rcases le_or_gt (2 ^ (f64.low + f64.prec - 1)) |a + b| with h | h
  · have h1 := rnd_rel (K := Rat) (a + b) h
    rw [Rat.cast_id, abs_of_nonneg (show 0 ≤ a + b by linarith)] at h1
    rw [abs_sub_comm]
    refine h1.trans ?_
    have h2 := (abs_le.1 h1).2
    show (a + b) / 2 ^ 53 ≤ _
    replace h2 : a + b - rnd f64 (a + b) ≤ (a + b) / 2 ^ 53 := h2
    norm_num at h2 ⊢
    linarith
  · obtain ⟨m, e, h1, h2, h3⟩ := ha
    obtain ⟨m', e', h1', h2', h3'⟩ := hb
    have hrep : Representable f64 (a + b) := by
      have hpos := two_zpow_pos (K := Rat) f64.low
      refine ⟨m * 2 ^ (e - f64.low).toNat + m' * 2 ^ (e' - f64.low).toNat, f64.low, ?_, le_refl _, ?_⟩
      · have e1 : a + b = ((m * 2 ^ (e - f64.low).toNat + m' * 2 ^ (e' - f64.low).toNat : Int) : Rat) * 2 ^ f64.low := by
          rw [h3, h3', two_zpow_split h2, two_zpow_split h2']
          push_cast
          ring
        rw [e1, abs_mul, abs_of_pos hpos, show f64.low + (f64.prec : Int) - 1 = 52 + f64.low by simp [f64],
          zpow_add₀ (by norm_num)] at h
        have h4 := lt_of_mul_lt_mul_right h hpos.le
        have h5 : |m * 2 ^ (e - f64.low).toNat + m' * 2 ^ (e' - f64.low).toNat| < 2 ^ 52 := by exact_mod_cast h4
        refine h5.trans ?_
        show (2 : Int) ^ 52 < 2 ^ 53
        norm_num
      · rw [h3, h3', two_zpow_split h2, two_zpow_split h2']
        push_cast
        ring
    rw [exact hrep, sub_self, abs_zero]
    positivity

/-- Each running total is close to the exact one. -/
theorem run_err {l : List Rat} (h : ∀ w ∈ l, 0 ≤ w) (hr : ∀ w ∈ l, Representable f64 w) {i : Nat} (hi : i ≤ l.length) :
    |run l i - Mcts.before l i| ≤ i * (run l l.length / 2 ^ 52) := by
  induction i with
  | zero => simp [run_zero, Mcts.before]
  | succ i ih =>
    have hi' : l[i]? = some l[i] := List.getElem?_eq_getElem (by omega)
    have h1 := add_err (run_rep l i) (hr _ (List.getElem_mem (by omega : i < l.length))) (run_nonneg h i) (h _ (List.getElem_mem _))
    rw [← run_succ hi'] at h1
    have h2 := ih (by omega)
    have h3 := run_mono h hi
    have h4 : run l (i + 1) / 2 ^ 52 ≤ run l l.length / 2 ^ 52 := by
      have : (0 : Rat) < 2 ^ 52 := by norm_num
      gcongr
    rw [Mcts.before_succ hi']
    push_cast
    have e : run l (i + 1) - (Mcts.before l i + l[i]) = (run l (i + 1) - (run l i + l[i])) + (run l i - Mcts.before l i) := by ring
    rw [e]
    refine (abs_add_le _ _).trans ?_
    linarith

/-- One weight is the difference of two running totals, up to one rounding. -/
theorem step_err {l : List Rat} (h : ∀ w ∈ l, 0 ≤ w) (hr : ∀ w ∈ l, Representable f64 w) {i : Nat} (hi : i < l.length) :
    |run l (i + 1) - run l i - l[i]| ≤ run l l.length / 2 ^ 52 := by
  have hi' : l[i]? = some l[i] := List.getElem?_eq_getElem (by omega)
  have h1 := add_err (run_rep l i) (hr _ (List.getElem_mem (by omega : i < l.length))) (run_nonneg h i) (h _ (List.getElem_mem _))
  rw [← run_succ hi'] at h1
  have h3 := run_mono h (show i + 1 ≤ l.length from hi)
  rw [show run l (i + 1) - run l i - l[i] = run l (i + 1) - (run l i + l[i]) by ring]
  refine h1.trans ?_
  have : (0 : Rat) < 2 ^ 52 := by norm_num
  gcongr

theorem card_le {N : Nat} {P : Nat → Prop} [DecidablePred P] {b : Rat} (hb : 0 ≤ b) (h : ∀ k, P k → (k : Rat) < b) :
    (((Finset.range N).filter P).card : Rat) ≤ b + 1 := by
  have h1 : ((Finset.range N).filter P).card ≤ ⌈b⌉₊ := by
    conv_rhs => rw [← Finset.card_range ⌈b⌉₊]
    refine Finset.card_le_card fun k hk => ?_
    exact Finset.mem_range.2 (Nat.lt_ceil.2 (h k (Finset.mem_filter.1 hk).2))
  have h2 := Nat.ceil_lt_add_one hb
  have h3 : (((Finset.range N).filter P).card : Rat) ≤ ⌈b⌉₊ := by exact_mod_cast h1
  linarith

theorem le_card {N : Nat} {P : Nat → Prop} [DecidablePred P] {a : Rat} (ha : a ≤ N) (h : ∀ k, k < N → (k : Rat) < a → P k) :
    a ≤ (((Finset.range N).filter P).card : Rat) := by
  have h1 : ⌈a⌉₊ ≤ ((Finset.range N).filter P).card := by
    conv_lhs => rw [← Finset.card_range ⌈a⌉₊]
    refine Finset.card_le_card fun k hk => ?_
    have hk' := Finset.mem_range.1 hk
    have hN : ⌈a⌉₊ ≤ N := Nat.ceil_le.2 ha
    exact Finset.mem_filter.2 ⟨Finset.mem_range.2 (by omega), h k (by omega) (Nat.lt_ceil.1 hk')⟩
  refine (Nat.le_ceil a).trans ?_
  exact_mod_cast h1

/-- The drawn numbers are evenly spread: about the right number of them is below each number of the format. -/
theorem count_below {T c : Rat} (hT : 2 ^ (-970 : Int) ≤ T) (hr : Representable f64 T) (hc : Representable f64 c) (h0 : 0 ≤ c) (h1 : c ≤ T) :
    2 ^ 52 * (c / T) - 1 / 2 ≤ (((Finset.range (2 ^ 52)).filter fun k => point T k < c).card : Rat) ∧
      (((Finset.range (2 ^ 52)).filter fun k => point T k < c).card : Rat) ≤ 2 ^ 52 * (c / T) + 1 := by
  have hT0 : 0 < T := lt_of_lt_of_le (two_zpow_pos _) hT
  have hs : scaleOf T = T := by
    refine scale_normal (le_trans ?_ hT) hr
    exact zpow_le_zpow_right₀ (by norm_num) (by norm_num)
  have hu : c / T ≤ 1 := (div_le_one hT0).2 h1
  have hu0 : 0 ≤ c / T := div_nonneg h0 hT0.le
  have hcT : c = c / T * T := by field_simp
  generalize c / T = s at *
  have hpt : ∀ k : Nat, point T k = rnd f64 ((k : Rat) / 2 ^ 52 * T) := by intro k; unfold point; rw [hs]
  constructor
  · refine le_trans ?_ (le_card (a := 2 ^ 52 * s * (1 - 1 / 2 ^ 53)) ?_ ?_)
    · norm_num
      linarith
    · rw [Nat.cast_pow, Nat.cast_ofNat]
      norm_num
      linarith
    · intro k hk hlt
      rw [hpt]
      rcases Nat.eq_zero_or_pos k with rfl | hk0
      · rw [Nat.cast_zero, zero_div, zero_mul, exact rep0]
        rw [Nat.cast_zero] at hlt
        rw [hcT]
        refine mul_pos ?_ hT0
        norm_num at hlt
        linarith
      · have hk1 : (1 : Rat) ≤ k := by exact_mod_cast hk0
        have hy : 2 ^ (f64.low + f64.prec - 1) ≤ (k : Rat) / 2 ^ 52 * T := by
          rw [show f64.low + (f64.prec : Int) - 1 = -52 + -970 by simp [f64], zpow_add₀ (by norm_num)]
          refine mul_le_mul ?_ hT (two_zpow_pos _).le (by positivity)
          rw [le_div_iff₀ (by norm_num)]
          norm_num
          exact hk0
        have hy0 : 0 ≤ (k : Rat) / 2 ^ 52 * T := by positivity
        have h2 := rnd_rel (K := Rat) (φ := f64) ((k : Rat) / 2 ^ 52 * T) (by rw [abs_of_nonneg hy0]; exact hy)
        rw [Rat.cast_id, abs_of_nonneg hy0] at h2
        replace h2 := (abs_le.1 h2).1
        replace h2 : -((k : Rat) / 2 ^ 52 * T / 2 ^ 53) ≤ (k : Rat) / 2 ^ 52 * T - rnd f64 ((k : Rat) / 2 ^ 52 * T) := h2
        have h3 : (k : Rat) / 2 ^ 52 * (1 + 1 / 2 ^ 53) < s := by
          norm_num at hlt ⊢
          linarith
        have h4 : (k : Rat) / 2 ^ 52 * (1 + 1 / 2 ^ 53) * T < s * T := mul_lt_mul_of_pos_right h3 hT0
        rw [hcT]
        have h5 : (k : Rat) / 2 ^ 52 * (1 + 1 / 2 ^ 53) * T = (k : Rat) / 2 ^ 52 * T + (k : Rat) / 2 ^ 52 * T / 2 ^ 53 := by ring
        linarith
  · refine card_le (by positivity) ?_
    intro k hk
    rw [hpt] at hk
    by_contra hno
    rw [not_lt] at hno
    refine absurd hk (not_lt.2 (rep_le (K := Rat) hp hc ?_))
    rw [Rat.cast_id]
    have h2 : s ≤ (k : Rat) / 2 ^ 52 := by
      rw [le_div_iff₀ (by norm_num)]
      linarith
    have h3 : s * T ≤ (k : Rat) / 2 ^ 52 * T := mul_le_mul_of_nonneg_right h2 hT0.le
    linarith

theorem card_between {N : Nat} {f : Nat → Rat} {a b : Rat} (h : a ≤ b) :
    (((Finset.range N).filter fun k => a ≤ f k ∧ f k < b).card : Rat) =
      ((Finset.range N).filter fun k => f k < b).card - ((Finset.range N).filter fun k => f k < a).card := by
  have h1 : (Finset.range N).filter (fun k => f k < b) =
      (Finset.range N).filter (fun k => f k < a) ∪ (Finset.range N).filter (fun k => a ≤ f k ∧ f k < b) := by
    ext k
    simp only [Finset.mem_union, Finset.mem_filter]
    constructor
    · rintro ⟨h1, h2⟩
      rcases lt_or_ge (f k) a with h3 | h3
      · exact .inl ⟨h1, h3⟩
      · exact .inr ⟨h1, h3, h2⟩
    · rintro (⟨h1, h2⟩ | ⟨h1, -, h2⟩)
      · exact ⟨h1, lt_of_lt_of_le h2 h⟩
      · exact ⟨h1, h2⟩
  rw [h1, Finset.card_union_of_disjoint]
  · push_cast
    ring
  · rw [Finset.disjoint_left]
    intro k hk hk'
    exact absurd (Finset.mem_filter.1 hk).2 (not_lt.2 (Finset.mem_filter.1 hk').2.1)

theorem card_blocks {P : Nat → Prop} [DecidablePred P] {a : Nat} (ha : 0 < a) (N : Nat) :
    ((Finset.range (a * N)).filter fun r => P (r / a)).card = a * ((Finset.range N).filter P).card := by
  induction N with
  | zero => simp
  | succ N ih =>
    rw [Nat.mul_succ, Finset.range_add_one, Finset.filter_insert]
    have h1 : (Finset.range (a * N + a)).filter (fun r => P (r / a)) =
        (Finset.range (a * N)).filter (fun r => P (r / a)) ∪ if P N then (Finset.Ico (a * N) (a * N + a)) else ∅ := by
      ext r
      have hdiv : a * N ≤ r → r < a * N + a → r / a = N := by
        intro h1 h2
        exact Nat.div_eq_of_lt_le (by rw [Nat.mul_comm]; exact h1) (by rw [Nat.mul_comm, Nat.mul_succ]; exact h2)
      by_cases hP : P N
      · rw [if_pos hP]
        simp only [Finset.mem_union, Finset.mem_filter, Finset.mem_range, Finset.mem_Ico]
        constructor
        · rintro ⟨h1, h2⟩
          rcases Nat.lt_or_ge r (a * N) with h | h
          · exact .inl ⟨h, h2⟩
          · exact .inr ⟨h, h1⟩
        · rintro (⟨h1, h2⟩ | ⟨h1, h2⟩)
          · exact ⟨by omega, h2⟩
          · exact ⟨h2, by rw [hdiv h1 h2]; exact hP⟩
      · rw [if_neg hP, Finset.union_empty]
        simp only [Finset.mem_filter, Finset.mem_range]
        constructor
        · rintro ⟨h1, h2⟩
          rcases Nat.lt_or_ge r (a * N) with h | h
          · exact ⟨h, h2⟩
          · rw [hdiv h h1] at h2
            exact absurd h2 hP
        · rintro ⟨h1, h2⟩
          exact ⟨by omega, h2⟩
    rw [h1, Finset.card_union_of_disjoint, ih]
    · by_cases hP : P N
      · rw [if_pos hP, if_pos hP, Finset.card_insert_of_notMem (by simp), Nat.card_Ico]
        rw [Nat.add_sub_cancel_left]
        ring
      · rw [if_neg hP, if_neg hP, Finset.card_empty, Nat.add_zero]
    · rw [Finset.disjoint_left]
      intro r hr hr'
      have := Finset.mem_range.1 (Finset.mem_filter.1 hr).1
      split at hr'
      · have := (Finset.mem_Ico.1 hr').1
        omega
      · cases hr'

/-- The probability of index `i`: of how many of the `2^64` outputs of the generator it is drawn. -/
def frequency (d : Draw64) (i : Nat) : Rat := ((Finset.range (2 ^ 64)).filter fun r => d.sample r = i).card / 2 ^ 64

/-- C107 (the frequencies): each index is drawn with a probability close to its share of the sum of the weights. -/
theorem C107_share {l : List Rat} {d : Draw64} (hh : ∀ w ∈ l, Held f64 (.fin w)) (h : drawNew (l.map .fin) = .ok d)
    (hbig : 2 ^ (-970 : Int) ≤ run l l.length) {i : Nat} (hi : i < l.length) :
    |frequency d i - l[i] / l.sum| ≤ (l.length * (l[i] / l.sum) + 3) / 2 ^ 52 := by
  obtain ⟨l', e1, e2, e3, e4, -⟩ := (C107_new (by
    intro w hw
    obtain ⟨v, hv, rfl⟩ := List.mem_map.1 hw
    exact hh v hv) d).1 h
  obtain rfl : l = l' := List.map_injective_iff.2 (fun a b h => by injection h) e1
  have hr : ∀ w ∈ l, Representable f64 w := fun w hw => (hh w hw).1
  set T := run l l.length with hTdef
  have hT0 : 0 < T := lt_of_lt_of_le (two_zpow_pos _) hbig
  have hTr : Representable f64 T := run_rep _ _
  -- the sum
  have hsum : Mcts.before l l.length = l.sum := by simp [Mcts.before]
  have hW := run_err e2 hr (le_refl l.length)
  rw [hsum, ← hTdef] at hW
  have hW0 : 0 < l.sum := by
    obtain ⟨w, hw, hw0⟩ := e3
    exact lt_of_lt_of_le hw0 (List.single_le_sum e2 w hw)
  have hs := step_err e2 hr hi
  rw [← hTdef] at hs
  -- the count
  have hcard : frequency d i = (((Finset.range (2 ^ 52)).filter fun k => run l i ≤ point T k ∧ point T k < run l (i + 1)).card : Rat) / 2 ^ 52 := by
    unfold frequency
    have hf : (Finset.range (2 ^ 64)).filter (fun r => d.sample r = i) =
        (Finset.range (2 ^ 12 * 2 ^ 52)).filter (fun r => run l i ≤ point T (r / 2 ^ 12) ∧ point T (r / 2 ^ 12) < run l (i + 1)) := by
      rw [show (2 : Nat) ^ 12 * 2 ^ 52 = 2 ^ 64 by norm_num]
      refine Finset.filter_congr fun r hr => ?_
      rw [sample_iff hh h (Finset.mem_range.1 hr)]
      exact ⟨fun g => g.2, fun g => ⟨hi, g⟩⟩
    rw [hf, card_blocks (P := fun k => run l i ≤ point T k ∧ point T k < run l (i + 1)) (by norm_num)]
    rw [Nat.cast_mul, Nat.cast_pow, Nat.cast_ofNat]
    rw [show (2 : Rat) ^ 64 = 2 ^ 12 * 2 ^ 52 by norm_num, mul_div_mul_left _ _ (by norm_num)]
  rw [card_between (run_step e2 i)] at hcard
  obtain ⟨b1, b2⟩ := count_below hbig hTr (run_rep l i) (run_nonneg e2 i) (run_mono e2 (by omega))
  obtain ⟨a1, a2⟩ := count_below hbig hTr (run_rep l (i + 1)) (run_nonneg e2 _) (run_mono e2 (by omega))
  rw [hcard]
  generalize ((Finset.range (2 ^ 52)).filter fun k => point T k < run l i).card = A at *
  generalize ((Finset.range (2 ^ 52)).filter fun k => point T k < run l (i + 1)).card = B at *
  -- the comparison
  have h1 : |((B : Rat) - A) - 2 ^ 52 * ((run l (i + 1) - run l i) / T)| ≤ 3 / 2 := by
    rw [sub_div, abs_le]
    constructor <;> linarith
  have h2 : |2 ^ 52 * ((run l (i + 1) - run l i) / T) - 2 ^ 52 * (l[i] / T)| ≤ 1 := by
    rw [← mul_sub, ← sub_div, abs_mul, abs_div, abs_of_pos hT0, abs_of_pos (by norm_num : (0 : Rat) < 2 ^ 52)]
    rw [← mul_div_assoc, div_le_one hT0, mul_comm, ← le_div_iff₀ (by norm_num)]
    exact hs
  have h3 : |2 ^ 52 * (l[i] / T) - 2 ^ 52 * (l[i] / l.sum)| ≤ l.length * (l[i] / l.sum) := by
    have hw0 : 0 ≤ l[i] := e2 _ (List.getElem_mem hi)
    have e : 2 ^ 52 * (l[i] / T) - 2 ^ 52 * (l[i] / l.sum) = (l[i] / l.sum) * (2 ^ 52 * ((l.sum - T) / T)) := by
      field_simp
    rw [e, abs_mul, abs_of_nonneg (div_nonneg hw0 hW0.le), mul_comm]
    refine mul_le_mul_of_nonneg_right ?_ (div_nonneg hw0 hW0.le)
    rw [abs_mul, abs_of_pos (by norm_num : (0 : Rat) < 2 ^ 52), abs_div, abs_of_pos hT0, ← mul_div_assoc, div_le_iff₀ hT0, abs_sub_comm]
    have : (2 : Rat) ^ 52 * (l.length * (T / 2 ^ 52)) = l.length * T := by field_simp
    rw [← this]
    exact mul_le_mul_of_nonneg_left hW (by norm_num)
  have h4 : ((B : Rat) - A) / 2 ^ 52 - l[i] / l.sum = (((B : Rat) - A) - 2 ^ 52 * (l[i] / l.sum)) / 2 ^ 52 := by field_simp
  rw [h4, abs_div, abs_of_pos (by norm_num : (0 : Rat) < 2 ^ 52)]
  refine div_le_div_of_nonneg_right ?_ (by norm_num)
  rw [abs_le] at h1 h2 h3 ⊢
  constructor <;> linarith

/-! ## The rows of the program -/

/-- An entry of a row as a number of `f64`. -/
def entry : Mcts.Val → Num
  | none => .nan
  | some q => .fin q

/-- The entries of a tensor of `f32`, as `pi.iter::<f64>()` returns them (alphazero.rs:130). -/
def entries (N : Nat) (p : Mcts.Row) : List Num := (List.range N).map fun c => entry (p c)

/-- The entries are numbers of `f32`. -/
def IsSingle (N : Nat) (p : Mcts.Row) : Prop := ∀ c, c < N → Held f32 (entry (p c))

theorem held_widen {w : Num} (h : Held f32 w) : Held f64 w := by
  cases w with
  | fin q =>
    obtain ⟨⟨m, e, h1, h2, h3⟩, h4⟩ := h
    refine ⟨⟨m, e, lt_trans h1 (by decide), le_trans (by decide) h2, h3⟩, lt_trans h4 ?_⟩
    exact zpow_lt_zpow_right₀ (by norm_num) (by decide)
  | inf s => trivial
  | nan => trivial

theorem single_ge {q : Rat} (h : Representable f32 q) (h0 : 0 < q) : 2 ^ (-149 : Int) ≤ q := by
  obtain ⟨m, e, h1, h2, rfl⟩ := h
  have hpos := two_zpow_pos (K := Rat) e
  have hm : (0 : Rat) < m := (mul_pos_iff_of_pos_right hpos).1 h0
  have hm1 : (1 : Rat) ≤ m := by
    have : 0 < m := by exact_mod_cast hm
    exact_mod_cast this
  have : (2 : Rat) ^ (-149 : Int) ≤ 2 ^ e := zpow_le_zpow_right₀ (by norm_num) h2
  nlinarith

theorem run_small {l : List Rat} (hb : ∀ w ∈ l, w ≤ 2 ^ 128) {i : Nat} (hi : i < 2 ^ 52) : run l i ≤ i * 2 ^ 128 := by
  induction i with
  | zero => rw [run_zero]; simp
  | succ i ih =>
    have h1 := ih (by omega)
    cases hw : l[i]? with
    | none =>
      rw [run_over (List.getElem?_eq_none_iff.1 hw)]
      refine h1.trans ?_
      push_cast
      linarith [show (0 : Rat) < 2 ^ 128 by norm_num]
    | some w =>
      have h2 := hb w (List.mem_of_getElem? hw)
      rw [run_succ hw]
      refine le_rep (K := Rat) hp ⟨(i + 1 : Nat), 128, ?_, by decide, by push_cast; norm_num⟩ ?_
      · rw [abs_of_nonneg (by omega)]
        show ((i + 1 : Nat) : Int) < 2 ^ 53
        omega
      · rw [Rat.cast_id]
        push_cast
        linarith

/-- The weights of a row. -/
def weights (N : Nat) (p : Mcts.Row) : List Rat := (List.range N).map fun c => (p c).getD 0

theorem entries_map {N : Nat} {p : Mcts.Row} {l : List Rat} (h : entries N p = l.map .fin) :
    (∀ c, c < N → ∃ x, p c = some x) ∧ l = weights N p := by
  have hlen : l.length = N := by simpa [entries] using (congrArg List.length h).symm
  have hp : ∀ c, (hc : c < N) → p c = some (l[c]'(by omega)) := by
    intro c hc
    have := congrArg (fun l => l[c]?) h
    simp only [entries, List.getElem?_map, List.getElem?_range hc, Option.map_some] at this
    rw [List.getElem?_eq_getElem (by omega)] at this
    simp only [Option.map_some, Option.some.injEq] at this
    cases hpc : p c with
    | none => rw [hpc] at this; cases this
    | some x =>
      rw [hpc] at this
      injection this with this
      rw [this]
  refine ⟨fun c hc => ⟨_, hp c hc⟩, ?_⟩
  refine List.ext_getElem (by simp [weights, hlen]) fun c h1 h2 => ?_
  simp [weights, hp c (by omega)]

theorem entries_weights {N : Nat} {p : Mcts.Row} (h : ∀ c, c < N → ∃ x, p c = some x) : entries N p = (weights N p).map .fin := by
  unfold entries weights
  rw [List.map_map]
  refine List.map_congr_left fun c hc => ?_
  obtain ⟨x, hx⟩ := h c (List.mem_range.1 hc)
  simp [hx, entry]

theorem weights_held {N : Nat} {p : Mcts.Row} (hp : IsSingle N p) (hs : ∀ c, c < N → ∃ x, p c = some x) :
    ∀ w ∈ weights N p, Held f32 (.fin w) := by
  intro w hw
  obtain ⟨c, hc, rfl⟩ := List.mem_map.1 hw
  have := hp c (List.mem_range.1 hc)
  obtain ⟨x, hx⟩ := hs c (List.mem_range.1 hc)
  rw [hx] at this ⊢
  exact this

/-- C107 (no panic): for a row of `f32` the draw succeeds exactly if the draw of the model does, for every tape. -/
theorem C107_total {N : Nat} {p : Mcts.Row} (hp : IsSingle N p) (hN : N < 2 ^ 52) (t : Tape) :
    (∃ d, drawNew (entries N p) = .ok d) ↔ ∃ c t', Mcts.weightedSelect N p t = .ok (c, t') := by
  have hh : ∀ w ∈ entries N p, Held f64 w := by
    intro w hw
    obtain ⟨c, hc, rfl⟩ := List.mem_map.1 hw
    exact held_widen (hp c (List.mem_range.1 hc))
  rw [(Dr.C98_agree N p).2 t]
  constructor
  · rintro ⟨d, hd⟩
    obtain ⟨l, e1, e2, ⟨w, e3, e3'⟩, e4, -⟩ := (C107_new hh d).1 hd
    obtain ⟨h1, rfl⟩ := entries_map e1
    refine ⟨_, Mcts.weightedIndexNew_ok.2 ⟨weights N p, ?_, List.ne_nil_of_mem e3, e2, ?_, rfl⟩⟩
    · unfold weights
      rw [List.map_map]
      refine List.map_congr_left fun c hc => ?_
      obtain ⟨x, hx⟩ := h1 c (List.mem_range.1 hc)
      simp [hx]
    · exact ne_of_gt (lt_of_lt_of_le e3' (List.single_le_sum e2 w e3))
  · rintro ⟨d, hd⟩
    obtain ⟨l, e1, e2, e3, e4, -⟩ := Mcts.weightedIndexNew_ok.1 hd
    obtain ⟨hlen, hl⟩ := Dr.range_map_some e1
    have hs : ∀ c, c < N → ∃ x, p c = some x := by
      intro c hc
      exact ⟨l[c]'(by omega), by rw [hl c hc, List.getElem?_eq_getElem]⟩
    have hlw : l = weights N p := by
      refine List.ext_getElem (by simp [weights, hlen]) fun c h1 h2 => ?_
      simp [weights, hl c (by omega), h1]
    subst hlw
    refine ⟨_, (C107_new hh _).2 ⟨weights N p, entries_weights hs, e3, ?_, ?_, rfl⟩⟩
    · by_contra hno
      refine e4 (List.sum_eq_zero fun w hw => le_antisymm (not_lt.1 fun h0 => hno ⟨w, hw, h0⟩) (e3 w hw))
    · refine lt_of_le_of_lt (run_small (fun w hw => ?_) (by omega)) ?_
      · have := (weights_held hp hs w hw).2
        exact (le_abs_self w).trans (by exact_mod_cast this.le)
      · have h1 : ((weights N p).length : Rat) ≤ 2 ^ 52 := by
          rw [hlen]
          exact_mod_cast hN.le
        calc ((weights N p).length : Rat) * 2 ^ 128 ≤ 2 ^ 52 * 2 ^ 128 := by
              exact mul_le_mul_of_nonneg_right h1 (by norm_num)
          _ < 2 ^ f64.high := by
              show (2 : Rat) ^ 52 * 2 ^ 128 < 2 ^ (1024 : Int)
              rw [show (2 : Rat) ^ 52 * 2 ^ 128 = 2 ^ (180 : Int) by norm_num]
              exact zpow_lt_zpow_right₀ (by norm_num) (by norm_num)

/-- C107 (the draw of the model): every index drawn in `f64` is drawn by the model for some tape. -/
theorem C107_model {N : Nat} {p : Mcts.Row} (hp : IsSingle N p) {d : Draw64} (h : drawNew (entries N p) = .ok d)
    {r : Nat} (hr : r < 2 ^ 64) : ∃ t t', Mcts.weightedSelect N p t = .ok (d.sample r, t') := by
  have hh : ∀ w ∈ entries N p, Held f64 w := by
    intro w hw
    obtain ⟨c, hc, rfl⟩ := List.mem_map.1 hw
    exact held_widen (hp c (List.mem_range.1 hc))
  obtain ⟨l, e1, e2, -⟩ := (C107_new hh d).1 h
  obtain ⟨h1, rfl⟩ := entries_map e1
  rw [e1] at h
  obtain ⟨w, hw, hw0⟩ := C107_positive (fun w hw => held_widen (weights_held hp h1 w hw)) h hr
  have hlt : d.sample r < N := by
    have := (List.getElem?_eq_some_iff.1 hw).1
    simpa [weights] using this
  obtain ⟨x, hx⟩ := h1 _ hlt
  have hxw : x = w := by simpa [weights, hlt, hx] using hw
  subst hxw
  rw [(Dr.C98_agree N p).1]
  have hmap : (List.range N).map p = (weights N p).map some := by
    unfold weights
    rw [List.map_map]
    refine List.map_congr_left fun c hc => ?_
    obtain ⟨x, hx⟩ := h1 c (List.mem_range.1 hc)
    simp [hx]
  obtain ⟨d', hd'⟩ : ∃ d', Mcts.weightedIndexNew ((List.range N).map p) = .ok d' :=
    ⟨_, Mcts.weightedIndexNew_ok.2 ⟨weights N p, hmap, List.ne_nil_of_mem (List.mem_of_getElem? hw), e2,
      ne_of_gt (lt_of_lt_of_le hw0 (List.single_le_sum e2 x (List.mem_of_getElem? hw))), rfl⟩⟩
  refine ⟨d', hd', ?_⟩
  rw [hmap] at hd'
  exact (Mcts.sample_support hd' _).2 ⟨x, hw, hw0⟩

/-- C107 (the frequencies, for a row of `f32`): each code is drawn with a probability close to its share. -/
theorem C107_row {N : Nat} {p : Mcts.Row} (hp : IsSingle N p) {d : Draw64} (h : drawNew (entries N p) = .ok d)
    {c : Nat} (hc : c < N) :
    ∃ q, p c = some q ∧ |frequency d c - q / (weights N p).sum| ≤ (N * (q / (weights N p).sum) + 3) / 2 ^ 52 := by
  have hh : ∀ w ∈ entries N p, Held f64 w := by
    intro w hw
    obtain ⟨c, hc, rfl⟩ := List.mem_map.1 hw
    exact held_widen (hp c (List.mem_range.1 hc))
  obtain ⟨l, e1, e2, ⟨w, e3, e3'⟩, -⟩ := (C107_new hh d).1 h
  obtain ⟨h1, rfl⟩ := entries_map e1
  rw [e1] at h
  have hlen : (weights N p).length = N := by simp [weights]
  have hbig : 2 ^ (-970 : Int) ≤ run (weights N p) (weights N p).length := by
    obtain ⟨k, hk, rfl⟩ := List.getElem_of_mem e3
    have g1 := run_ge e2 (fun v hv => (held_widen (weights_held hp h1 v hv)).1) (List.getElem?_eq_getElem hk)
    have g2 := run_mono e2 (show k + 1 ≤ (weights N p).length by omega)
    have g3 := single_ge (weights_held hp h1 _ (List.getElem_mem hk)).1 e3'
    have g4 : (2 : Rat) ^ (-970 : Int) ≤ 2 ^ (-149 : Int) := zpow_le_zpow_right₀ (by norm_num) (by norm_num)
    linarith
  have := C107_share (fun v hv => held_widen (weights_held hp h1 v hv)) h hbig (i := c) (by omega)
  obtain ⟨x, hx⟩ := h1 c hc
  refine ⟨x, hx, ?_⟩
  have e : (weights N p)[c]'(by omega) = x := by simp [weights, hx]
  rw [e, hlen] at this
  exact this

theorem drawn_of_frequency {d : Draw64} {i : Nat} (h : 0 < frequency d i) : ∃ r, r < 2 ^ 64 ∧ d.sample r = i := by
  by_contra hno
  unfold frequency at h
  rw [Finset.filter_eq_empty_iff.2 fun r hr he => hno ⟨r, Finset.mem_range.1 hr, he⟩] at h
  simp at h

/-- C107 (all but the rarest moves are drawn): with the rows of the program, a code with a share of at least `2^-49` is
drawn for some output of the generator. -/
theorem C107_drawn {N : Nat} {p : Mcts.Row} (hp : IsSingle N p) (hN : N ≤ 1352) {d : Draw64} (h : drawNew (entries N p) = .ok d)
    {c : Nat} (hc : c < N) {q : Rat} (hq : p c = some q) (hs : 1 / 2 ^ 49 ≤ q / (weights N p).sum) :
    ∃ r, r < 2 ^ 64 ∧ d.sample r = c := by
  obtain ⟨q', e, h1⟩ := C107_row hp h hc
  obtain rfl : q' = q := by rw [hq] at e; injection e with e; exact e.symm
  refine drawn_of_frequency ?_
  have h2 := (abs_le.1 h1).1
  have hN' : (N : Rat) ≤ 1352 := by exact_mod_cast hN
  generalize q' / (weights N p).sum = s at *
  have hs0 : 0 ≤ s := le_trans (by norm_num) hs
  have h3 : (N : Rat) * s ≤ 1352 * s := mul_le_mul_of_nonneg_right hN' hs0
  norm_num at h2 hs ⊢
  linarith

/-! ## A move that is never drawn -/

/-- The claim that every index with positive weight is drawn for some output of the generator. -/
def C107_statement : Prop :=
  ∀ (N : Nat) (p : Mcts.Row), IsSingle N p → ∀ d, drawNew (entries N p) = .ok d → ∀ c, c < N → ∀ q, p c = some q → 0 < q →
    ∃ r, r < 2 ^ 64 ∧ d.sample r = c

/-- The row `[1, 2^-60]`. -/
def uneven : Mcts.Row := fun c => if c = 0 then some 1 else some (1 / 2 ^ 60)

theorem uneven_single : IsSingle 2 uneven := by
  intro c hc
  match c, hc with
  | 0, _ =>
    refine ⟨⟨1, 0, by decide, by decide, by norm_num⟩, ?_⟩
    show |(1 : Rat)| < 2 ^ (128 : Int)
    norm_num
  | 1, _ =>
    refine ⟨⟨1, -60, by decide, by decide, by norm_num⟩, ?_⟩
    show |(1 : Rat) / 2 ^ 60| < 2 ^ (128 : Int)
    norm_num

theorem C107_refuted : ¬ C107_statement := by
  intro hst
  have hs : ∀ c, c < 2 → ∃ x, uneven c = some x := by
    intro c _
    unfold uneven
    split
    · exact ⟨_, rfl⟩
    · exact ⟨_, rfl⟩
  obtain ⟨d, hd⟩ := (C107_total uneven_single (by norm_num) (fun _ => 0)).2 (Mcts.weightedSelect_progress (d := 0) (y := 1) (by
    intro b _
    unfold uneven
    split
    · exact ⟨_, rfl, by norm_num⟩
    · exact ⟨_, rfl, by norm_num⟩) (by norm_num) rfl (by norm_num) _)
  obtain ⟨r, hr, h⟩ := hst 2 uneven uneven_single d hd 1 (by norm_num) (1 / 2 ^ 60) rfl (by norm_num)
  rw [entries_weights hs] at hd
  obtain ⟨-, g1, g2⟩ := (sample_iff (fun w hw => held_widen (weights_held uneven_single hs w hw)) hd hr 1).1 h
  have e : run (weights 2 uneven) 2 = run (weights 2 uneven) 1 := by decide +kernel
  rw [show 1 + 1 = 2 from rfl, e] at g2
  linarith

/-- A row with three entries, one of them zero: the first quarter of the outputs draws index 0, the others index 2. -/
def quarter : Mcts.Row := fun c => if c = 0 then some (1 / 4) else if c = 1 then some 0 else some (3 / 4)

example : IsSingle 3 quarter ∧ (drawNew (entries 3 quarter)).map (fun d => [d.sample 0, d.sample (2 ^ 62 - 1), d.sample (2 ^ 62), d.sample (2 ^ 64 - 1)])
    = .ok [0, 0, 2, 2] := by
  refine ⟨?_, by decide +kernel⟩
  intro c hc
  match c, hc with
  | 0, _ =>
    refine ⟨⟨1, -2, by decide, by decide, by norm_num⟩, ?_⟩
    show |(1 : Rat) / 4| < 2 ^ (128 : Int)
    norm_num
  | 1, _ =>
    refine ⟨⟨0, 0, by decide, by decide, by norm_num⟩, ?_⟩
    show |(0 : Rat)| < 2 ^ (128 : Int)
    norm_num
  | 2, _ =>
    refine ⟨⟨3, -2, by decide, by decide, by norm_num⟩, ?_⟩
    show |(3 : Rat) / 4| < 2 ^ (128 : Int)
    norm_num

/-- NaN, negative, infinite and all-zero weights make the program panic. -/
example : drawNew [.fin 1, .nan] = .error .unwrapNone ∧ drawNew [.fin 1, .fin (-1)] = .error .unwrapNone ∧
    drawNew [.fin 1, .inf false] = .error .assertFailed ∧ drawNew [.fin 0, .fin 0] = .error .unwrapNone ∧
    drawNew [] = .error .unwrapNone := by decide +kernel

end DieE.Props.Dw
