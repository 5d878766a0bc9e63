import Verif.Mcts.BatchKept
import Verif.Props.Alpha
import Verif.Props.Shares32

/-!
# C136 for finished searches: the visit shares computed in single precision against the exact ones
-/

namespace DieE.Props.Sa
open DieE DieE.Mcts DieE.Fp DieE.Props.A
variable {G : Game} {Fl : Floats}

/-! ## The visits of the children of a root -/

theorem vincN_le (k v : Nat) : vincN k v ≤ v + k := by
  induction k generalizing v with
  | zero => exact Nat.le_refl _
  | succ k ih =>
    have h1 : vinc v ≤ v + 1 := by unfold vinc; split <;> omega
    have := ih (vinc v)
    show vincN k (vinc v) ≤ _
    omega

/-- A node lies below at most one child of a node. -/
theorem sibling {st : Store G Fl} (w : WellFormed st) {g : Nat} {gn : Node G Fl} (hg : st[g]? = some gn) {o o' y : Nat}
    (ho : o ∈ gn.children) (ho' : o' ∈ gn.children) (h : Anc st o y) (h' : Anc st o' y) : o = o' := by
  obtain ⟨on, h1, h2⟩ := w.down g gn o hg ho
  obtain ⟨on', h1', h2'⟩ := w.down g gn o' hg ho'
  have hlt := (w.up o on g h1 h2).1
  have hlt' := (w.up o' on' g h1' h2').1
  induction h with
  | refl =>
    cases h' with
    | refl => rfl
    | step k1 k2 k3 =>
      rw [h1] at k1
      cases k1
      rw [h2] at k2
      cases k2
      have := k3.le w.upLt
      omega
  | step k1 k2 k3 ih =>
    cases h' with
    | refl =>
      rw [h1'] at k1
      cases k1
      rw [h2'] at k2
      cases k2
      have := k3.le w.upLt
      omega
    | step j1 j2 j3 =>
      rw [k1] at j1
      cases j1
      rw [k2] at j2
      cases j2
      exact ih j3

open Classical in
theorem one_below {st : Store G Fl} (w : WellFormed st) {g : Nat} {gn : Node G Fl} (hg : st[g]? = some gn) (y : Nat) :
    (gn.children.map fun o => if Anc st o y then 1 else 0).sum ≤ 1 := by
  have key : ∀ l : List Nat, l.Nodup → (∀ o ∈ l, o ∈ gn.children) → (l.map fun o => if Anc st o y then 1 else 0).sum ≤ 1 := by
    intro l
    induction l with
    | nil => intro _ _; simp
    | cons o l ih =>
      intro hn hl
      rw [List.map_cons, List.sum_cons]
      have hn := List.nodup_cons.1 hn
      by_cases h : Anc st o y
      · have h0 : (l.map fun o => if Anc st o y then 1 else 0).sum = 0 := by
          refine List.sum_eq_zero fun x hx => ?_
          obtain ⟨o', h1, rfl⟩ := List.mem_map.1 hx
          refine if_neg fun h' => hn.1 ?_
          rw [sibling w hg (hl o (List.mem_cons_self ..)) (hl o' (List.mem_cons_of_mem _ h1)) h h']
          exact h1
        rw [if_pos h, h0]
      · rw [if_neg h, Nat.zero_add]
        exact ih hn.2 fun o ho => hl o (List.mem_cons_of_mem _ ho)
  exact key _ (w.nodup g gn hg) fun _ h => h

open Classical in
theorem countOf_at {P : Nat → Prop} {l : List Nat} {g x : Nat} (hx : l[g]? = some x)
    (h : ∀ j y, l[j]? = some y → P y → j = g) : countOf P l ≤ if P x then 1 else 0 := by
  by_cases hp : P x
  · rw [if_pos hp]
    refine le_of_eq (countOf_one (r := g) (List.getElem?_eq_some_iff.1 hx).1 fun j y hj => ⟨h j y hj, ?_⟩)
    rintro rfl
    rw [hx] at hj
    cases hj
    exact hp
  · rw [if_neg hp]
    unfold countOf
    refine le_of_eq (List.countP_eq_zero.2 fun y hy => ?_)
    simp only [decide_eq_true_eq]
    intro hpy
    obtain ⟨j, hj⟩ := List.getElem?_of_mem hy
    obtain rfl := h j y hj hpy
    rw [hx] at hj
    cases hj
    exact hp hpy

open Classical in
/-- An iteration adds at most two visits to the children of a root. -/
theorem iteration_children {net : Net Fl} {states : List G.S} {order : List Nat} {st st' : Store G Fl} {sel sel' : List Nat}
    {t t' : Tape} (f : Forest states st) (hs : SelOk states st sel) (hnd : order.Nodup)
    (ho : ∀ g, g ∈ order ↔ g < states.length) (h : parallelIteration net order st sel t = .ok ((st', sel'), t'))
    {g : Nat} (hg : g < states.length) {gn : Node G Fl} (hgn : st[g]? = some gn) :
    (gn.children.map (visitsAt st')).sum ≤ (gn.children.map (visitsAt st)).sum + 2 := by
  obtain ⟨-, hs', hup, -, hmem, -, hvis⟩ := parallelIteration_ok f hs hnd ho h
  obtain ⟨k, kn, hl, -, -⟩ := f.leaf hg
  obtain ⟨x, hx⟩ : ∃ x, sel'[g]? = some x := ⟨_, List.getElem?_eq_getElem (by rw [hs'.len]; exact hg)⟩
  have hch : ∀ o ∈ gn.children, Anc st g o := fun o hoc => by
    obtain ⟨cn, h4, h5⟩ := f.wf.down g gn o hgn hoc
    exact .step h4 h5 .refl
  have hone : ∀ o ∈ gn.children, visitsAt st' o ≤
      visitsAt st o + ((if Anc st o k then 1 else 0) + if Anc st o x then 1 else 0) := by
    intro o hoc
    rw [hvis g o k kn hg (hch o hoc) hl]
    refine le_trans (vincN_le _ _) (Nat.add_le_add_left (Nat.add_le_add ?_ ?_) _)
    · by_cases hw : G.winner kn.state ≠ none ∧ Anc st o k
      · rw [if_pos hw, if_pos hw.2]
      · rw [if_neg hw]
        exact Nat.zero_le _
    · have hc := countOf_at (P := fun k => Anc st o k) hx (by
        intro j y hj hy
        have hjl : j < states.length := by rw [← hs'.len]; exact (List.getElem?_eq_some_iff.1 hj).1
        obtain ⟨on, h1, h2⟩ := f.wf.down g gn o hgn hoc
        have hlt := (f.wf.up o on g h1 h2).1
        have hyl : y < st.length := hmem y (List.mem_of_getElem? hj)
        rcases (hs'.mem j y hj).2 with rfl | ha
        · have := hy.le f.wf.upLt
          omega
        · exact f.rootUnique hjl hg (ha.of_up f.wf.upLt hup hyl) ((hch o hoc).trans hy))
      by_cases he : ∃ g, g < states.length ∧ ¬ EndsTerminal st g
      · rw [if_pos he]
        exact hc
      · rw [if_neg he]
        exact Nat.zero_le _
  have key : ∀ l : List Nat, (∀ o ∈ l, o ∈ gn.children) → (l.map (visitsAt st')).sum ≤ (l.map (visitsAt st)).sum +
      ((l.map fun o => if Anc st o k then 1 else 0).sum + (l.map fun o => if Anc st o x then 1 else 0).sum) := by
    intro l
    induction l with
    | nil => intro _; simp
    | cons o l ih =>
      intro hl
      have h1 := ih fun o ho => hl o (List.mem_cons_of_mem _ ho)
      have h2 := hone o (hl o (List.mem_cons_self ..))
      simp only [List.map_cons, List.sum_cons]
      omega
  have h1 := key _ fun _ h => h
  have h2 := one_below f.wf hgn k
  have h3 := one_below f.wf hgn x
  omega

/-- The children of a root have at most two visits per iteration. -/
theorem iterate_children {net : Net Fl} {states : List G.S} {order : List Nat} (hnd : order.Nodup)
    (ho : ∀ g, g ∈ order ↔ g < states.length) {g : Nat} (hg : g < states.length) (k : Nat) :
    ∀ {st st' : Store G Fl} {sel sel' : List Nat} {t t' : Tape} {gn : Node G Fl}, Forest states st → SelOk states st sel →
      st[g]? = some gn → gn.expandable = [] → parallelIterate net order k st sel t = .ok ((st', sel'), t') →
      ∃ gn', st'[g]? = some gn' ∧ gn'.children = gn.children ∧
        (gn.children.map (visitsAt st')).sum ≤ (gn.children.map (visitsAt st)).sum + 2 * k := by
  induction k with
  | zero =>
    intro st st' sel sel' t t' gn f hs hgn hd h
    obtain ⟨h1, -⟩ := Prod.mk.inj (M.pure_ok.1 h)
    obtain ⟨rfl, -⟩ := Prod.mk.inj h1
    exact ⟨gn, hgn, rfl, Nat.le_refl _⟩
  | succ k ih =>
    intro st st' sel sel' t t' gn f hs hgn hd h
    obtain ⟨⟨st1, sel1⟩, t1, h1, h2⟩ := M.bind_ok.1 h
    obtain ⟨f1, hs1, -⟩ := parallelIteration_ok f hs hnd ho h1
    obtain ⟨gn1, e1, -, -, -, e5⟩ := parallelIteration_kept f hs hnd ho h1 g gn hgn
    obtain ⟨e5, e6⟩ := e5 hd
    obtain ⟨gn', e7, e8, e9⟩ := ih f1 hs1 e1 e5 h2
    have := iteration_children f hs hnd ho h1 hg hgn
    refine ⟨gn', e7, e8.trans e6, ?_⟩
    rw [e6] at e9
    omega

/-- After a batched search the children of a root have at most two visits per iteration. -/
theorem search_children {net : Net Fl} {states : List G.S} {order : List Nat} (ho : order.Perm (List.range states.length))
    {iterations : Nat} {st st' : Store G Fl} {t t' : Tape} (h : alphaMctsParallel net order states iterations st t = .ok (st', t'))
    {g : Nat} (hg : g < states.length) {gn : Node G Fl} (hgn : st'[g]? = some gn) :
    (gn.children.map (visitsAt st')).sum ≤ 2 * iterations := by
  unfold alphaMctsParallel at h
  obtain ⟨st1, t1, h1, h⟩ := M.bind_ok.1 h
  obtain ⟨⟨st2, sel2⟩, t2, h2, h⟩ := M.bind_ok.1 h
  obtain ⟨rfl, -⟩ := Prod.mk.inj (M.pure_ok.1 h)
  obtain ⟨f, -⟩ := parallelStart_ok h1
  have hd := parallelStart_done h1
  obtain ⟨n0, hn0⟩ : ∃ n, st1[g]? = some n := ⟨_, List.getElem?_eq_getElem (Nat.lt_of_lt_of_le hg f.len)⟩
  obtain ⟨gn', e1, e2, e3⟩ := iterate_children (perm_range ho).1 (perm_range ho).2 hg iterations f (selOk_replicate f) hn0
    (hd g hg n0 hn0) h2
  rw [hgn] at e1
  cases e1
  have h0 : (n0.children.map (visitsAt st1)).sum = 0 := by
    refine List.sum_eq_zero fun x hx => ?_
    obtain ⟨o, hoc, rfl⟩ := List.mem_map.1 hx
    obtain ⟨cn, h4, h5⟩ := f.wf.down g n0 o hn0 hoc
    have := (parallelStart_prior (P := fun _ => True) (fun _ _ _ _ _ => trivial) h1 cn (List.mem_of_getElem? h4)
      (by rw [h5]; simp)).2
    simp [visitsAt, h4, this]
  rw [e2]
  omega

/-! ## The rows -/

/-- A value as an `f32`. -/
def toNum : Val → Num
  | none => .nan
  | some q => .fin q

/-- The row of visit shares in single precision for the given codes and visits; `T` is the order of adding up. -/
def shares32 (T : SumTree) (ws : List (Nat × Val)) : Nat → Num := visitShares T (ws.map fun w => (w.1, toNum w.2))

/-- The entries `y` computed in single precision stand for the exact shares `row`. -/
structure Close32 (N : Nat) (row : Row) (y : Nat → Num) : Prop where
  near : ∀ c < N, ∃ a b : Rat, row c = some a ∧ y c = .fin b ∧ |b - a| ≤ a / 2 ^ 24 ∧ (b = 0 ↔ a = 0)
  mono : ∀ c < N, ∀ d < N, ∀ a a' b b' : Rat, row c = some a → row d = some a' → y c = .fin b → y d = .fin b' →
    a ≤ a' → b ≤ b'

theorem close_row {N : Nat} {T : SumTree} (hT : T.codes.Perm (List.range N)) {l : List (Nat × Nat)}
    (hn : (l.map Prod.fst).Nodup) (hN : ∀ w ∈ l, w.1 < N) (h0 : 0 < (l.map Prod.snd).sum)
    (hV : (l.map Prod.snd).sum ≤ 2 ^ 24) :
    Close32 N (normalise N (putAll zeroRow (l.map fun w => (w.1, some (w.2 : Rat)))))
      (shares32 T (l.map fun w => (w.1, some (w.2 : Rat)))) := by
  classical
  let l' : List (Nat × Rat) := l.map fun w => (w.1, (w.2 : Rat))
  have hn' : (l'.map Prod.fst).Nodup := by
    rw [List.map_map]
    exact hn
  have hN' : ∀ w ∈ l', w.1 < N := fun w hw => by
    obtain ⟨u, hu, rfl⟩ := List.mem_map.1 hw
    exact hN u hu
  have hs : (l'.map Prod.snd).sum = ((l.map Prod.snd).sum : Nat) := by
    rw [Nat.cast_list_sum, List.map_map, List.map_map]
    rfl
  have hs0 : (l'.map Prod.snd).sum ≠ 0 := by
    rw [hs]
    exact_mod_cast h0.ne'
  have hrow : ∀ c, normalise N (putAll zeroRow (l.map fun w => (w.1, some (w.2 : Rat)))) c =
      some (sel l' c / ((l.map Prod.snd).sum : Nat)) := fun c => by
    rw [← hs, ← normalise_put hn' hN' hs0 c, List.map_map]
    rfl
  have hsel : ∀ w ∈ l, sel l' w.1 = w.2 := fun w hw =>
    sel_mem hn' (List.mem_map_of_mem (f := fun w : Nat × Nat => (w.1, (w.2 : Rat))) hw)
  let v : Nat → Nat := fun c => if h : ∃ k, (c, k) ∈ l then h.choose else 0
  have hv : ∀ w ∈ l, v w.1 = w.2 := fun w hw => by
    have he : ∃ k, (w.1, k) ∈ l := ⟨w.2, hw⟩
    have h1 := hsel _ he.choose_spec
    rw [hsel w hw] at h1
    have e : v w.1 = he.choose := dif_pos he
    rw [e]
    exact_mod_cast h1.symm
  have hvs : ∀ c, (v c : Rat) = sel l' c := fun c => by
    by_cases he : ∃ k, (c, k) ∈ l
    · obtain ⟨k, hk⟩ := he
      rw [hsel _ hk]
      exact_mod_cast hv _ hk
    · have e : v c = 0 := dif_neg he
      rw [e, sel_notMem]
      · rfl
      · intro hc
        rw [List.map_map] at hc
        obtain ⟨w, hw, rfl⟩ := List.mem_map.1 hc
        exact he ⟨w.2, hw⟩
  have hsum : ((l.map Prod.fst).map v).sum = (l.map Prod.snd).sum := by
    rw [List.map_map]
    exact congrArg List.sum (List.map_congr_left fun w hw => hv w hw)
  have hws : shares32 T (l.map fun w => (w.1, some (w.2 : Rat))) =
      visitShares T ((l.map Prod.fst).map fun c => (c, .fin (v c))) := by
    unfold shares32
    congr 1
    rw [List.map_map, List.map_map]
    refine List.map_congr_left fun w hw => ?_
    show (w.1, Num.fin (w.2 : Rat)) = (w.1, Num.fin (v w.1 : Rat))
    rw [hv w hw]
  obtain ⟨x, x1, x2, x3, x4, x5, -⟩ := C136_visits hT (codes := l.map Prod.fst) hn
    (fun k hk => by obtain ⟨w, hw, rfl⟩ := List.mem_map.1 hk; exact hN w hw) (v := v) (by rw [hsum]; exact h0)
    (by rw [hsum]; exact hV)
  have hpos : (0 : Rat) < ((l.map Prod.snd).sum : Nat) := by exact_mod_cast h0
  have hout : ∀ c, c ∉ l.map Prod.fst → v c = 0 := fun c hc => by
    refine dif_neg ?_
    rintro ⟨k, hk⟩
    exact hc (List.mem_map_of_mem (f := Prod.fst) hk)
  constructor
  · intro c hc
    refine ⟨_, x c, hrow c, by rw [hws]; exact x1 c hc, ?_, ?_⟩
    · rw [← hvs]
      by_cases hm : c ∈ l.map Prod.fst
      · have := x3 c hm
        rwa [hsum] at this
      · rw [x2 c hc hm, hout c hm]
        simp
    · rw [← hvs, div_eq_zero_iff, or_iff_left hpos.ne', Nat.cast_eq_zero]
      by_cases hm : c ∈ l.map Prod.fst
      · exact (x4 c hm).2.2
      · rw [x2 c hc hm, hout c hm]
        simp
  · intro c hc d hd a a' b b' ha ha' hb hb' hle
    rw [hrow, Option.some.injEq] at ha ha'
    rw [hws, x1 _ (by assumption), Num.fin.injEq] at hb hb'
    subst ha ha' hb hb'
    rw [div_le_div_iff_of_pos_right hpos, ← hvs, ← hvs] at hle
    have hle : v c ≤ v d := by exact_mod_cast hle
    by_cases hmc : c ∈ l.map Prod.fst
    · by_cases hmd : d ∈ l.map Prod.fst
      · exact x5 c hmc d hmd hle
      · rw [hout d hmd] at hle
        rw [(x4 c hmc).2.2.2 (by omega), x2 d hd hmd]
    · rw [x2 c hc hmc]
      by_cases hmd : d ∈ l.map Prod.fst
      · exact (x4 d hmd).1
      · rw [x2 d hd hmd]

/-- C136 for a finished search: with at most `2^23` iterations, whatever the order of adding up, the visit shares computed in
single precision are the exact ones up to a relative error of `2^-24`, vanish for the same moves, and have the same
order. -/
theorem C136_finished {R : G.S → Prop} (hs : SafeNet G R) (hc : Coded G R) {net : Net Fl} (ha : net.alphaOk = true)
    {states : List G.S} (hne : states ≠ []) (hstates : ∀ s ∈ states, R s) {order : List Nat}
    (ho : order.Perm (List.range states.length)) {iterations : Nat} (hi : iterations ≠ 0) (hI : iterations ≤ 2 ^ 23)
    {st : Store G Fl} {t t' : Tape} (h : alphaMctsParallel net order states iterations ([] : Store G Fl) t = .ok (st, t'))
    {T : SumTree} (hT : T.codes.Perm (List.range G.actionSpace)) :
    ∃ rows, getProbTensorParallel (getRootNodes st) st = .ok rows ∧ rows.length = states.length ∧
      ∀ (j : Nat) (s : G.S) (ms : List G.Mv), states[j]? = some s → G.moves s = .ok ms → ms ≠ [] →
        ∃ (n : Node G Fl) (ws : List (Nat × Val)) (row : Row), st[j]? = some n ∧ childVisits n.state st n = .ok ws ∧
          rows[j]? = some row ∧ Close32 G.actionSpace row (shares32 T ws) := by
  obtain ⟨st0, t0, h0, hR⟩ := alphaMctsParallel_progress (Fl := Fl) hs ha hne hstates ho iterations t
  rw [h] at h0
  cases h0
  have f := alphaMctsParallel_forest ho h
  have hmem : ∀ n ∈ getRootNodes st, ∃ i : Nat, st[i]? = some n := fun n hn =>
    List.getElem?_of_mem (List.mem_of_mem_filter hn)
  obtain ⟨-, -, -, hroots⟩ := C38_roots ho h
  obtain ⟨rows, h1, h2, -⟩ := C39_rows hc f.wf hR hmem
  refine ⟨rows, h1, by rw [h2, ← List.length_map (f := Node.state), hroots], ?_⟩
  intro j s ms hj hms hmne
  have hjl := (List.getElem?_eq_some_iff.1 hj).1
  obtain ⟨n, ms', g1, g2, g3, -, g5⟩ := alphaMctsParallel_visited ho h j s hj
  rw [hms] at g3
  cases g3
  obtain ⟨k1, k2, k3⟩ := childVisits_ok hc f.wf g1 (hR j n g1)
  have hnode : (getRootNodes st)[j]? = some n := by
    rw [getRootNodes_take f, List.getElem?_take, if_pos hjl]
    exact g1
  have hm : (getRootNodes st).mapM (fun n => childVisits n.state st n) =
      .ok ((getRootNodes st).map fun n => (n.children.map (childEntry n.state st)).map fun w => (w.1, some w.2)) :=
    mapM_eq_map fun n hn => by
      obtain ⟨i, hi⟩ := hmem n hn
      exact (childVisits_ok hc f.wf hi (hR i n hi)).1
  have hrow : rows[j]? = some (normalise G.actionSpace (putAll zeroRow
      ((n.children.map (childEntry n.state st)).map fun w => (w.1, some w.2)))) := by
    unfold getProbTensorParallel at h1
    rw [hm] at h1
    simp only [bind, Except.bind] at h1
    split at h1
    · rw [← Except.ok.inj h1]
      simp [hnode]
    · cases h1
  let l : List (Nat × Nat) := n.children.map fun c => ((childEntry n.state st c).1, visitsAt st c)
  have hl : ((n.children.map (childEntry n.state st)).map fun w => (w.1, some w.2)) =
      l.map fun w => (w.1, some (w.2 : Rat)) := by
    rw [List.map_map, List.map_map]
    rfl
  have hl1 : l.map Prod.fst = (n.children.map (childEntry n.state st)).map Prod.fst := by
    rw [List.map_map, List.map_map]
    rfl
  have hl2 : l.map Prod.snd = n.children.map (visitsAt st) := by
    rw [List.map_map]
    rfl
  refine ⟨n, _, _, g1, k1, hrow, ?_⟩
  rw [hl]
  refine close_row hT (by rw [hl1]; exact k2) (fun w hw => ?_) ?_ ?_
  · obtain ⟨c, hcm, rfl⟩ := List.mem_map.1 hw
    exact (k3 _ (List.mem_map_of_mem hcm)).1
  · rw [hl2]
    obtain ⟨c, c1, c2⟩ := g5 hi hmne
    exact Nat.lt_of_lt_of_le c2 (List.single_le_sum (by simp) _ (List.mem_map_of_mem c1))
  · rw [hl2]
    have := search_children ho h hjl g1
    have : (2 : Nat) ^ 24 = 2 * 2 ^ 23 := by norm_num
    omega

/-- The initial TicTacToe position after five iterations, the visits added up in the order of the codes: the first move
has some share, and `f32` gives it within a relative error of `2^-24`. -/
example : ∃ st t', demoRun [0] [TTT.new] 5 = .ok (st, t') ∧ ∃ (n : Node (TTT.game .debug) S.demoFloats) (ws : List (Nat × Val))
    (a b : Rat), st[0]? = some n ∧ childVisits n.state st n = .ok ws ∧ shares32 (SumTree.inOrder 9) ws 0 = .fin b ∧
    |b - a| ≤ a / 2 ^ 24 := by
  have hp : ∀ s ∈ [TTT.new], s.player = 1 ∨ s.player = -1 := by decide
  obtain ⟨st, t', h, -⟩ := alphaMctsParallel_progress (Fl := S.demoFloats) (ttt_safeNet .debug) (net := demoNet) rfl
    (states := [TTT.new]) (List.cons_ne_nil _ _) hp (order := [0]) (by decide) 5 S.demoTape
  obtain ⟨rows, -, -, h3⟩ := C136_finished (ttt_safeNet .debug) (ttt_coded .debug) rfl (List.cons_ne_nil _ _) hp
    (by decide) (by decide) (by norm_num) h (T := SumTree.inOrder 9) (by rw [inOrder_codes]; exact List.Perm.refl _)
  obtain ⟨n, ws, row, k1, k2, -, k4⟩ := h3 0 TTT.new (TTT.getValidMoves TTT.new) rfl rfl
    (List.ne_nil_of_mem (a := (8 : Nat)) (by decide))
  obtain ⟨a, b, -, e2, e3, -⟩ := k4.near 0 (by decide)
  exact ⟨st, t', h, n, ws, a, b, k1, k2, e2, e3⟩

end DieE.Props.Sa
