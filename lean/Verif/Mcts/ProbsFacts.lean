import Verif.Mcts.Probs
import Verif.Mcts.BatchVisits
import Mathlib.Tactic.Linarith
import Mathlib.Tactic.Ring
import Mathlib.Tactic.FieldSimp
import Mathlib.Algebra.BigOperators.Group.List.Basic
import Mathlib.Algebra.Order.BigOperators.Group.List

/-! # Facts about rows -/

namespace DieE.Mcts

/-- The row `p` is a probability distribution on the codes below `N`. -/
def IsDist (N : Nat) (p : Row) : Prop :=
  ∃ q : Nat → Rat, (∀ c, c < N → p c = some (q c) ∧ 0 ≤ q c) ∧ ((List.range N).map q).sum = 1

theorem rowSum_some {N : Nat} {p : Row} {q : Nat → Rat} (h : ∀ c, c < N → p c = some (q c)) :
    rowSum N p = some ((List.range N).map q).sum := by
  unfold rowSum
  induction N with
  | zero => simp
  | succ N ih =>
    rw [List.range_succ, List.foldl_append, ih (fun c hc => h c (by omega))]
    simp [h N (by omega), Val.add, List.sum_append]

/-- Sum of the weights of the entries of a list with a given code. -/
def sel (l : List (Nat × Rat)) (c : Nat) : Rat := (l.map fun w => if c = w.1 then w.2 else 0).sum

theorem sel_notMem {l : List (Nat × Rat)} {c : Nat} (h : c ∉ l.map Prod.fst) : sel l c = 0 := by
  induction l with
  | nil => rfl
  | cons w l ih =>
    simp only [List.map_cons, List.mem_cons, not_or] at h
    have := ih h.2
    simp only [sel, List.map_cons, List.sum_cons] at *
    rw [this, if_neg h.1, add_zero]

theorem sel_mem {l : List (Nat × Rat)} (hn : (l.map Prod.fst).Nodup) {w : Nat × Rat} (hw : w ∈ l) :
    sel l w.1 = w.2 := by
  induction l with
  | nil => cases hw
  | cons v l ih =>
    simp only [List.map_cons, List.nodup_cons] at hn
    rcases List.mem_cons.1 hw with rfl | hw
    · have := sel_notMem hn.1
      simp only [sel, List.map_cons, List.sum_cons] at *
      rw [this, if_pos trivial, add_zero]
    · have h2 := ih hn.2 hw
      have : w.1 ≠ v.1 := by
        intro h
        exact hn.1 (h ▸ List.mem_map_of_mem hw)
      simp only [sel, List.map_cons, List.sum_cons] at *
      rw [h2, if_neg this, zero_add]

theorem sel_nonneg {l : List (Nat × Rat)} (h : ∀ w ∈ l, 0 ≤ w.2) (c : Nat) : 0 ≤ sel l c := by
  refine List.sum_nonneg ?_
  intro x hx
  obtain ⟨w, hw, rfl⟩ := List.mem_map.1 hx
  split
  · exact h w hw
  · exact le_refl _

theorem sum_if_eq (N k : Nat) (x : Rat) (h : k < N) :
    ((List.range N).map fun c => if c = k then x else 0).sum = x := by
  induction N with
  | zero => omega
  | succ N ih =>
    rw [List.range_succ, List.map_append, List.sum_append]
    by_cases hk : k = N
    · subst hk
      have : ∀ M, M ≤ k → ((List.range M).map fun c => if c = k then x else 0).sum = 0 := by
        intro M hM
        refine List.sum_eq_zero ?_
        intro y hy
        obtain ⟨c, hc, rfl⟩ := List.mem_map.1 hy
        have := List.mem_range.1 hc
        exact if_neg (by omega)
      rw [this k (le_refl _)]
      simp
    · rw [ih (by omega)]
      simp [show N ≠ k from fun h => hk h.symm]

theorem sum_map_add {α : Type} (l : List α) (f g : α → Rat) :
    (l.map fun x => f x + g x).sum = (l.map f).sum + (l.map g).sum := by
  induction l with
  | nil => simp
  | cons a l ih => simp only [List.map_cons, List.sum_cons, ih]; ring

theorem sum_map_div {α : Type} (l : List α) (f : α → Rat) (s : Rat) :
    (l.map fun x => f x / s).sum = (l.map f).sum / s := by
  induction l with
  | nil => simp
  | cons a l ih => simp only [List.map_cons, List.sum_cons, ih]; ring

theorem sum_map_mul {α : Type} (l : List α) (f : α → Rat) (s : Rat) :
    (l.map fun x => s * f x).sum = s * (l.map f).sum := by
  induction l with
  | nil => simp
  | cons a l ih => simp only [List.map_cons, List.sum_cons, ih]; ring

theorem sel_sum {l : List (Nat × Rat)} {N : Nat} (h : ∀ w ∈ l, w.1 < N) :
    ((List.range N).map (sel l)).sum = (l.map Prod.snd).sum := by
  induction l with
  | nil =>
    refine List.sum_eq_zero ?_
    intro y hy
    obtain ⟨c, -, rfl⟩ := List.mem_map.1 hy
    rfl
  | cons w l ih =>
    have : sel (w :: l) = fun c => (if c = w.1 then w.2 else 0) + sel l c := by
      funext c; simp [sel]
    rw [this, sum_map_add, sum_if_eq _ _ _ (h w (List.mem_cons_self ..)), ih fun v hv => h v (List.mem_cons_of_mem _ hv)]
    simp

theorem putAll_notMem (ws : List (Nat × Val)) (p : Row) {c : Nat} (h : c ∉ ws.map Prod.fst) : putAll p ws c = p c := by
  induction ws generalizing p with
  | nil => rfl
  | cons w ws ih =>
    simp only [List.map_cons, List.mem_cons, not_or] at h
    simp only [putAll, List.foldl_cons] at *
    rw [ih _ h.2, if_neg h.1]

theorem putAll_mem {ws : List (Nat × Val)} (p : Row) (hn : (ws.map Prod.fst).Nodup) {w : Nat × Val} (hw : w ∈ ws) :
    putAll p ws w.1 = w.2 := by
  induction ws generalizing p with
  | nil => cases hw
  | cons v ws ih =>
    simp only [List.map_cons, List.nodup_cons] at hn
    rcases List.mem_cons.1 hw with rfl | hw
    · have := putAll_notMem ws (fun c => if c = w.1 then w.2 else p c) hn.1
      simp only [putAll, List.foldl_cons] at *
      rw [this, if_pos trivial]
    · have := ih (fun c => if c = v.1 then v.2 else p c) hn.2 hw
      simpa only [putAll, List.foldl_cons] using this

/-- Writing numbers at distinct codes into a row of zeros. -/
theorem putAll_zero {l : List (Nat × Rat)} (hn : (l.map Prod.fst).Nodup) (c : Nat) :
    putAll zeroRow (l.map fun w => (w.1, some w.2)) c = some (sel l c) := by
  have e : (l.map fun w : Nat × Rat => ((w.1, some w.2) : Nat × Val)).map Prod.fst = l.map Prod.fst := by simp
  by_cases h : c ∈ l.map Prod.fst
  · obtain ⟨w, hw, rfl⟩ := List.mem_map.1 h
    rw [sel_mem hn hw]
    exact putAll_mem (w := (w.1, some w.2)) zeroRow (by rw [e]; exact hn)
      (List.mem_map_of_mem (f := fun w : Nat × Rat => ((w.1, some w.2) : Nat × Val)) hw)
  · rw [sel_notMem h, putAll_notMem _ _ (by rw [e]; exact h)]
    rfl

/-- Shares of weights written at distinct codes. -/
theorem normalise_put {l : List (Nat × Rat)} {N : Nat} (hn : (l.map Prod.fst).Nodup) (hN : ∀ w ∈ l, w.1 < N)
    (hs : (l.map Prod.snd).sum ≠ 0) (c : Nat) :
    normalise N (putAll zeroRow (l.map fun w => (w.1, some w.2))) c = some (sel l c / (l.map Prod.snd).sum) := by
  unfold normalise
  rw [rowSum_some fun c _ => putAll_zero hn c, sel_sum hN, putAll_zero hn]
  simp [Val.div, hs]

theorem normalise_put_zero {l : List (Nat × Rat)} {N : Nat} (hn : (l.map Prod.fst).Nodup) (hN : ∀ w ∈ l, w.1 < N)
    (hs : (l.map Prod.snd).sum = 0) (c : Nat) :
    normalise N (putAll zeroRow (l.map fun w => (w.1, some w.2))) c = none := by
  unfold normalise
  rw [rowSum_some fun c _ => putAll_zero hn c, sel_sum hN, putAll_zero hn]
  simp [Val.div, hs]

theorem isDist_share {l : List (Nat × Rat)} {N : Nat} (h0 : ∀ w ∈ l, 0 ≤ w.2) (hN : ∀ w ∈ l, w.1 < N)
    (hs : (l.map Prod.snd).sum ≠ 0) {p : Row} (hp : ∀ c, c < N → p c = some (sel l c / (l.map Prod.snd).sum)) :
    IsDist N p := by
  have hnn : 0 ≤ (l.map Prod.snd).sum := List.sum_nonneg (by
    intro x hx; obtain ⟨w, hw, rfl⟩ := List.mem_map.1 hx; exact h0 w hw)
  refine ⟨fun c => sel l c / (l.map Prod.snd).sum, fun c hc => ⟨hp c hc, ?_⟩, ?_⟩
  · exact div_nonneg (sel_nonneg h0 c) hnn
  · rw [sum_map_div, sel_sum hN, div_self hs]

/-! ## Visit shares of the children of a node -/

variable {G : Game} {Fl : Floats}

/-- The codes of legal moves: distinct moves, all inside the action space, and decoding gives the move back. -/
structure Coded (G : Game) (R : G.S → Prop) : Prop where
  nodup : ∀ s ms, R s → G.moves s = .ok ms → ms.Nodup
  code : ∀ s ms a, R s → G.moves s = .ok ms → a ∈ ms →
    ∃ c, G.encode s a = .ok c ∧ c < G.actionSpace ∧ G.decode s c = .ok a

theorem mapM_eq_map {α β : Type} {f : α → Res β} {g : α → β} {l : List α} (h : ∀ x ∈ l, f x = .ok (g x)) :
    l.mapM f = .ok (l.map g) := by
  induction l with
  | nil => rfl
  | cons a l ih =>
    rw [List.mapM_cons, h a (List.mem_cons_self ..), ih fun x hx => h x (List.mem_cons_of_mem _ hx)]
    rfl

/-- The number of `encode`, for legal moves. -/
def codeOf (s : G.S) (a : G.Mv) : Nat := match G.encode s a with
  | .ok c => c
  | .error _ => 0

/-- Code and visits of a child. -/
def childEntry (s : G.S) (st : Store G Fl) (c : Nat) : Nat × Rat :=
  (match st[c]? with
    | some m => match m.action with
      | some a => codeOf s a
      | none => 0
    | none => 0, (visitsAt st c : Rat))

theorem childEntry_eq {s : G.S} {st : Store G Fl} {c : Nat} {m : Node G Fl} {a : G.Mv} (h : st[c]? = some m)
    (ha : m.action = some a) : childEntry s st c = (codeOf s a, (m.visits : Rat)) := by
  unfold childEntry visitsAt
  rw [h]
  simp [ha]

theorem codes_eq {st : Store G Fl} {s : G.S} (l : List Nat)
    (h : ∀ c ∈ l, ∃ (m : Node G Fl) (a : G.Mv), st[c]? = some m ∧ m.action = some a) :
    l.map (fun c => (childEntry s st c).1) =
      (l.filterMap fun c => (st[c]?).bind fun m => m.action).map (codeOf s) := by
  induction l with
  | nil => rfl
  | cons c l ih =>
    obtain ⟨m, a, h1, h2⟩ := h c (List.mem_cons_self ..)
    rw [List.map_cons, ih fun d hd => h d (List.mem_cons_of_mem _ hd), List.filterMap_cons]
    simp [h1, h2, childEntry_eq h1 h2]

theorem nodup_map_codeOf {R : G.S → Prop} (hc : Coded G R) {s : G.S} (hR : R s) {ms : List G.Mv}
    (hm : G.moves s = .ok ms) {l : List G.Mv} (hl : l.Nodup) (hsub : ∀ a ∈ l, a ∈ ms) : (l.map (codeOf s)).Nodup := by
  rw [List.Nodup, List.pairwise_map]
  refine List.Pairwise.imp_of_mem ?_ hl
  intro a b ha hb hne he
  obtain ⟨c, h1, -, h2⟩ := hc.code s ms a hR hm (hsub a ha)
  obtain ⟨d, h3, -, h4⟩ := hc.code s ms b hR hm (hsub b hb)
  simp only [codeOf, h1, h3] at he
  subst he
  rw [h2] at h4
  injection h4 with h4
  exact hne h4

/-- The codes and visits read by `get_prob_tensor`: distinct codes of legal moves. -/
theorem childVisits_ok {R : G.S → Prop} (hc : Coded G R) {st : Store G Fl} (w : WellFormed st) {i : Nat}
    {n : Node G Fl} (hi : st[i]? = some n) (hR : R n.state) :
    childVisits n.state st n = .ok ((n.children.map (childEntry n.state st)).map fun w => (w.1, some w.2)) ∧
      ((n.children.map (childEntry n.state st)).map Prod.fst).Nodup ∧
      ∀ e ∈ n.children.map (childEntry n.state st), e.1 < G.actionSpace ∧ 0 ≤ e.2 := by
  obtain ⟨ms, hm, hperm⟩ := w.part i n hi
  have hch : ∀ c ∈ n.children, ∃ (m : Node G Fl) (a : G.Mv), st[c]? = some m ∧ m.action = some a ∧ a ∈ ms := by
    intro c hcm
    obtain ⟨cn, hcn, -⟩ := w.down i n c hi hcm
    obtain ⟨a, ms', h1, h2, h3, -⟩ := child_legal w hi hcm hcn
    rw [hm] at h2
    injection h2 with h2
    subst h2
    exact ⟨cn, a, hcn, h1, h3⟩
  refine ⟨?_, ?_, ?_⟩
  · rw [List.map_map]
    unfold childVisits
    apply mapM_eq_map
    intro c hcm
    obtain ⟨m, a, h1, h2, h3⟩ := hch c hcm
    obtain ⟨code, h4, -⟩ := hc.code n.state ms a hR hm h3
    rw [getNode_ok.2 h1]
    simp only [bind, Except.bind, h2, h4, Function.comp, childEntry_eq h1 h2, codeOf]
    rfl
  · rw [List.map_map]
    have : n.children.map (Prod.fst ∘ childEntry n.state st) = (childActions st n).map (codeOf n.state) :=
      codes_eq n.children fun c hcm => by
        obtain ⟨m, a, h1, h2, -⟩ := hch c hcm
        exact ⟨m, a, h1, h2⟩
    rw [this]
    have hnd := (hperm.nodup_iff.2 (hc.nodup n.state ms hR hm))
    refine nodup_map_codeOf hc hR hm (List.nodup_append.1 hnd).2.1 ?_
    intro a ha
    exact hperm.subset (List.mem_append_right _ ha)
  · intro e he
    obtain ⟨c, hcm, rfl⟩ := List.mem_map.1 he
    obtain ⟨m, a, h1, h2, h3⟩ := hch c hcm
    obtain ⟨code, h4, h5, -⟩ := hc.code n.state ms a hR hm h3
    rw [childEntry_eq h1 h2]
    simp only [codeOf, h4]
    exact ⟨h5, Nat.cast_nonneg _⟩

/-- The total of the visits of the children of a node. -/
def childTotal (st : Store G Fl) (n : Node G Fl) : Nat := (n.children.map (visitsAt st)).sum

theorem entries_total (s : G.S) (st : Store G Fl) (n : Node G Fl) :
    ((n.children.map (childEntry s st)).map Prod.snd).sum = (childTotal st n : Rat) := by
  unfold childTotal
  induction n.children with
  | nil => simp
  | cons c l ih =>
    simp only [List.map_cons, List.sum_cons, ih, childEntry]
    push_cast
    rfl

theorem childTotal_pos {st : Store G Fl} {n : Node G Fl} {c : Nat} (hc : c ∈ n.children) (h : 1 ≤ visitsAt st c) :
    0 < childTotal st n := by
  unfold childTotal
  have := List.single_le_sum (l := n.children.map (visitsAt st)) (by simp) _ (List.mem_map_of_mem hc)
  omega

/-! ## Weighted choice -/

/-- A successful weighted choice returns a code of positive weight. -/
theorem weightedSelect_ok {N : Nat} {p : Row} {c : Nat} {t t' : Tape} (h : weightedSelect N p t = .ok (c, t')) :
    c < N ∧ ∃ x, p c = some x ∧ 0 < x := by
  unfold weightedSelect at h
  split at h
  · rename_i hall
    obtain ⟨r, t1, h1, h2⟩ := M.bind_ok.1 h
    cases r with
    | none => exact (M.fail_ok.1 h2).elim
    | some d =>
      have := M.pure_ok.1 h2
      simp only [Prod.mk.injEq] at this
      obtain ⟨rfl, rfl⟩ := this
      obtain ⟨h3, h4⟩ : c < N ∧ p c ≠ some 0 := by
        rcases choose_spec ((List.range N).filter fun c => decide (p c ≠ some 0)) t with ⟨-, h3⟩ | ⟨a, t2, h3, h4⟩
        · rw [h3] at h1; cases h1
        · rw [h4] at h1
          injection h1 with h1
          simp only [Prod.mk.injEq, Option.some.injEq] at h1
          rw [← h1.1]
          simpa using h3
      have := List.all_eq_true.1 hall c (List.mem_range.2 h3)
      cases hp : p c with
      | none => rw [hp] at this; cases this
      | some x =>
        rw [hp] at this h4
        simp only [Val.isWeight, decide_eq_true_eq] at this
        refine ⟨h3, x, rfl, lt_of_le_of_ne this ?_⟩
        intro h0
        exact h4 (by rw [← h0])
  · exact (M.fail_ok.1 h).elim

/-- The weighted choice returns if the weights are numbers, none of them negative and one of them positive. -/
theorem weightedSelect_progress {N : Nat} {p : Row} (hw : ∀ c, c < N → ∃ x, p c = some x ∧ 0 ≤ x) {d : Nat} (hd : d < N)
    {y : Rat} (hy : p d = some y) (hpos : 0 < y) (t : Tape) : ∃ c t', weightedSelect N p t = .ok (c, t') := by
  unfold weightedSelect
  rw [if_pos (List.all_eq_true.2 fun c hc => by
    obtain ⟨x, h1, h2⟩ := hw c (List.mem_range.1 hc)
    simp [h1, Val.isWeight, h2])]
  rcases choose_spec ((List.range N).filter fun c => decide (p c ≠ some 0)) t with ⟨h3, -⟩ | ⟨a, t2, h3, h4⟩
  · have : d ∈ (List.range N).filter fun c => decide (p c ≠ some 0) := by
      simp only [List.mem_filter, List.mem_range, decide_eq_true_eq]
      exact ⟨hd, by rw [hy]; intro h; injection h with h; exact absurd h (ne_of_gt hpos)⟩
    rw [h3] at this
    cases this
  · exact ⟨a, t2, M.bind_ok.2 ⟨some a, t2, h4, rfl⟩⟩

end DieE.Mcts
