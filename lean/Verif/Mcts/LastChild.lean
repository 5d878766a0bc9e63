import Verif.Mcts.RootPriors
import Verif.Mcts.Path

/-! # A batched search below a node whose children cannot be compared

If no child of a node compares greater than another one, `select_alpha` always returns the last child. -/

namespace DieE.Mcts

variable {G : Game} {Fl : Floats}

/-- `max_by` returns the last element if no comparison gives `Greater`. -/
theorem maxBy_ties {α : Type} {cmp : α → α → Res Ordering} {l : List α} {m : α}
    (h : ∀ a ∈ l, ∀ b ∈ l, ∀ o, cmp a b = .ok o → o ≠ .gt) (e : maxBy cmp l = .ok (some m)) : l.getLast? = some m := by
  cases l with
  | nil => cases e
  | cons a l =>
    unfold maxBy at e
    obtain ⟨m', e1, e2⟩ := Res.bind_ok.1 e
    cases e2
    have step : ∀ (r : List α) (acc : α), acc ∈ a :: l → (∀ x ∈ r, x ∈ a :: l) → r.foldlM (fun acc x => do
        let o ← cmp acc x
        pure (if o = Ordering.gt then acc else x)) acc = .ok m → (acc :: r).getLast? = some m := by
      intro r
      induction r with
      | nil =>
        intro acc _ _ e
        cases e
        rfl
      | cons x r ih =>
        intro acc hacc hr e
        rw [List.foldlM_cons] at e
        obtain ⟨b, e1, e⟩ := Res.bind_ok.1 e
        obtain ⟨o, e2, e3⟩ := Res.bind_ok.1 e1
        cases e3
        have hx := hr x (List.mem_cons_self ..)
        rw [if_neg (h acc hacc x hx o e2)] at e
        have := ih x hx (fun y hy => hr y (List.mem_cons_of_mem _ hy)) e
        rwa [List.getLast?_cons_cons]
    exact step l a (List.mem_cons_self ..) (fun x hx => List.mem_cons_of_mem _ hx) e1

/-- The priors for which scores are never greater than others. -/
def Lost (P : Fl.F → Prop) : Prop :=
  ∀ v n q p v' n' q' p', P q → Fl.cmp (Fl.alphaUcb v n q p) (Fl.alphaUcb v' n' q' p') ≠ .gt

/-- All children of `n` have priors satisfying `P`. -/
def AllKids (P : Fl.F → Prop) (st : Store G Fl) (n : Node G Fl) : Prop :=
  ∀ c ∈ n.children, ∃ m : Node G Fl, st[c]? = some m ∧ P m.policy

theorem selectAlpha_last {P : Fl.F → Prop} (hP : Lost P) {st : Store G Fl} (w : WellFormed st) {i : Nat}
    {n m : Node G Fl} (hi : st[i]? = some n) (hk : AllKids P st n) (h : selectAlpha i st = .ok m) :
    n.children.getLast? = some m.idx := by
  obtain ⟨cs, h1, h2, -, h3⟩ := mapM_getNode st n.children fun c hc => w.child_lt hi hc
  unfold selectAlpha at h
  rw [getNode_ok.2 hi] at h
  obtain ⟨cs', h4, h⟩ := Res.bind_ok.1 (show (childNodes st n >>= _) = _ from h)
  rw [show childNodes st n = .ok cs from h1] at h4
  cases Except.ok.inj h4
  obtain ⟨best, h5, h⟩ := Res.bind_ok.1 h
  cases best with
  | none => cases h
  | some b =>
    cases Except.ok.inj h
    have hl := maxBy_ties (by
      intro a ha b hb o ho
      obtain ⟨ca, hca, hca'⟩ := (h2 a).1 ha
      obtain ⟨cb, hcb, hcb'⟩ := (h2 b).1 hb
      rw [(ucb_child w hi hca hca').2, (ucb_child w hi hcb hcb').2] at ho
      cases ho
      obtain ⟨a', ha', hp⟩ := hk ca hca
      rw [hca'] at ha'
      cases ha'
      exact hP _ _ _ _ _ _ _ _ hp) h5
    have hcs : cs.map Node.idx = n.children := by
      refine List.ext_getElem? fun j => ?_
      rw [List.getElem?_map]
      have := h3 j
      cases hc : n.children[j]? with
      | none => rw [hc] at this; simp_all
      | some c =>
        rw [hc] at this
        obtain ⟨cn, hcn, -⟩ := w.down i n c hi (List.mem_of_getElem? hc)
        have e : cs[j]? = some cn := by rw [this]; simpa using hcn
        rw [e]
        simp [w.idx c cn hcn]
    rw [← hcs, List.getLast?_map, hl]
    rfl

/-- The leaf found from `j` lies below a child `c` of `p` only if `select_alpha` returns `c` for `p`. -/
theorem alphaLeaf_through {st : Store G Fl} (w : WellFormed st) (f j : Nat) (hj : j < st.length)
    {k : Nat} (h : alphaLeaf st f j = .ok k) {x : Nat} {n : Node G Fl} (hx : st[x]? = some n) (h1 : Anc st j x)
    {c : Nat} (hc : c ∈ n.children) (h2 : Anc st c k) (hf : st.length ≤ f + j) :
    ∃ m : Node G Fl, selectAlpha x st = .ok m ∧ m.idx = c := by
  induction f generalizing j with
  | zero => omega
  | succ f ih =>
    obtain ⟨jn, hjn⟩ : ∃ n, st[j]? = some n := ⟨_, List.getElem?_eq_getElem hj⟩
    rw [alphaLeaf_step hjn] at h
    obtain ⟨cn, hcn, hcp⟩ := w.down x n c hx hc
    have hxc := (w.up c cn x hcn hcp).1
    by_cases hl : jn.children.isEmpty = true
    · rw [if_pos hl] at h
      cases Except.ok.inj h
      rw [w.idx j jn hjn] at h2
      have := h1.le w.upLt
      have := h2.le w.upLt
      omega
    · rw [if_neg hl] at h
      have hch : jn.children ≠ [] := by
        intro h; simp [h] at hl
      obtain ⟨d, m, g1, g2, g3⟩ := selectAlpha_spec w hjn hch
      rw [g1] at h
      have h : alphaLeaf st f m.idx = .ok k := h
      rw [w.idx d m g3] at h
      obtain ⟨dn, hdn, hdp⟩ := w.down j jn d hjn g2
      have hjd := (w.up d dn j hdn hdp).1
      have hdl := (List.getElem?_eq_some_iff.1 hdn).1
      obtain ⟨k', -, e1, -, e2, -⟩ := alphaLeaf_spec w f d hdl (by omega)
      rw [h] at e1
      cases Except.ok.inj e1
      by_cases hjx : j = x
      · subst hjx
        rw [hx] at hjn
        cases Option.some.inj hjn
        exact ⟨m, g1, by rw [w.idx d m g3]; exact anc_sibling w hx g2 hc e2 h2⟩
      · have hkc : Anc st x k := Anc.trans (.step hcn hcp .refl) h2
        refine ih d hdl h ?_ (by omega)
        rcases anc_total e2 hkc with h | h
        · exact h
        · rcases (anc_cases hdn).1 h with h | ⟨q, hq, h⟩
          · rw [h]; exact .refl
          · rw [hdp] at hq
            cases Option.some.inj hq
            have := h.le w.upLt
            have := h1.le w.upLt
            omega

/-! ## Nodes are expanded completely -/

/-- Nodes with children have no move left to expand. -/
def Full (st : Store G Fl) : Prop :=
  ∀ (i : Nat) (n : Node G Fl), st[i]? = some n → n.children ≠ [] → n.expandable = []

theorem Full.shape {st st' : Store G Fl} (h : Full st) (hs : SameShape st st') : Full st' := by
  intro i n hn hc
  obtain ⟨m, h1, h2⟩ := hs.symm.get hn
  simp only [Node.shape, Prod.mk.injEq] at h2
  obtain ⟨-, -, -, e4, -, e6⟩ := h2
  rw [← e6]
  exact h i m h1 (by rw [e4]; exact hc)

/-- The nodes added by an expansion: they have no children and no visits. -/
theorem alphaExpandWith_new {n n0 n' : Node G Fl} {prior : Nat → Res Fl.F} {st st' : Store G Fl} {i : Nat} {t t' : Tape}
    (w : WellFormed st) (hi : st[i]? = some n0) (hn : n.shape = n0.shape)
    (h : alphaExpandWith n prior st t = .ok ((st', n'), t')) (j : Nat) (m : Node G Fl) (hj : st.length ≤ j)
    (hm : st'[j]? = some m) : m.children = [] ∧ m.visits = 0 := by
  obtain ⟨news, -, h2, h3, -, h4, h5⟩ := alphaExpandWith_ok h
  simp only [Node.shape, Prod.mk.injEq] at hn
  have hil := (List.getElem?_eq_some_iff.1 hi).1
  have hidx : n.idx = i := hn.2.1.trans (w.idx i n0 hi)
  rw [h2, hidx, List.getElem?_set_ne (by omega), List.getElem?_append_right hj] at hm
  have hq : j - st.length < n.expandable.length := by
    rw [← h3]; exact (List.getElem?_eq_some_iff.1 hm).1
  exact ⟨(h4 _ m _ hm (List.getElem?_eq_getElem hq)).children, h5 m (List.mem_of_getElem? hm)⟩

theorem Full.expand {n n0 n' : Node G Fl} {prior : Nat → Res Fl.F} {st st' : Store G Fl} {i : Nat} {t t' : Tape}
    (w : WellFormed st) (hi : st[i]? = some n0) (hn : n.shape = n0.shape) (hf : Full st)
    (h : alphaExpandWith n prior st t = .ok ((st', n'), t')) : Full st' := by
  obtain ⟨-, -, -, -, h1, -, -, -, h2⟩ := alphaExpand_wf w hi hn h
  obtain ⟨news, h3, -⟩ := alphaExpandWith_ok h
  intro j m hm hc
  by_cases hji : j = i
  · rw [hji, h1] at hm
    cases hm
    rw [h3]
  · by_cases hjl : j < st.length
    · rw [h2 j hji hjl] at hm
      exact hf j m hm hc
    · exact absurd (alphaExpandWith_new w hi hn h j m (by omega) hm).1 hc

/-! ## The priors below the roots -/

/-- In every batch that has the state in a row, the priors of its legal moves satisfy `P`. -/
def Inner (P : Fl.F → Prop) (net : Net Fl) (s : G.S) : Prop :=
  ∀ (ms as : List G.Mv) (codes : List Nat), G.moves s = .ok ms → as.Perm ms → as.mapM (G.encode s) = .ok codes →
    ∀ (ts : List (Tensor Int)) (x u : Tensor Int) (row : Nat), batchTensor ts = .ok x → ts[row]? = some u →
      G.tensor s = .ok u → ∀ k ∈ codes, P (net.priorTensor (fun c => net.policy x row c) codes k)

/-- The children of the nodes from `r` on that have such a state have such priors. -/
def InnerKids (P : Fl.F → Prop) (net : Net Fl) (r : Nat) (st : Store G Fl) : Prop :=
  ∀ (i : Nat) (n : Node G Fl), r ≤ i → st[i]? = some n → Inner P net n.state → AllKids P st n

theorem Kept.kids {P : Fl.F → Prop} {st st' : Store G Fl} (hk : Kept st st') {n n' : Node G Fl}
    (he : n'.children = n.children) (h : AllKids P st n) : AllKids P st' n' := by
  intro c hc
  rw [he] at hc
  obtain ⟨m, h1, h2⟩ := h c hc
  obtain ⟨m', k1, -, -, k2, -⟩ := hk c m h1
  exact ⟨m', k1, by rw [k2]; exact h2⟩

theorem InnerKids.shape {P : Fl.F → Prop} {net : Net Fl} {r : Nat} {st st' : Store G Fl} (h : InnerKids P net r st)
    (hs : SameShape st st') (hk : Kept st st') : InnerKids P net r st' := by
  intro i n hr hn hi
  obtain ⟨m, h1, h2⟩ := hs.symm.get hn
  simp only [Node.shape, Prod.mk.injEq] at h2
  obtain ⟨e1, -, -, e4, -⟩ := h2
  exact hk.kids e4.symm (h i m hr h1 (by rw [e1]; exact hi))

theorem mapM_code {α β : Type} {f : α → Res β} {l : List α} {l' : List β} (h : l.mapM f = .ok l') {a : α} (ha : a ∈ l)
    {b : β} (hb : f a = .ok b) : b ∈ l' := by
  induction l generalizing l' with
  | nil => cases ha
  | cons c l ih =>
    rw [List.mapM_cons] at h
    obtain ⟨y, h1, h⟩ := Res.bind_ok.1 h
    obtain ⟨ys, h2, h⟩ := Res.bind_ok.1 h
    cases Except.ok.inj h
    rcases List.mem_cons.1 ha with rfl | ha
    · rw [hb] at h1
      cases h1
      exact List.mem_cons_self ..
    · exact List.mem_cons_of_mem _ (ih h2 ha)

theorem InnerKids.expand {P : Fl.F → Prop} {net : Net Fl} {r row i : Nat} {st st' : Store G Fl} {n n' : Node G Fl}
    {ts : List (Tensor Int)} {x u : Tensor Int} {p probs : Tensor Fl.F} {t t' : Tape} (w : WellFormed st) (hf : Full st)
    (hx : batchTensor ts = .ok x) (hu : ts[row]? = some u) (hsu : G.tensor n.state = .ok u)
    (hi : st[i]? = some n) (hp : (net.policyTensor G x).get row = .ok p) (hq : probsTensor net p n = .ok probs)
    (h : InnerKids P net r st) (e : alphaExpandTensor n probs st t = .ok ((st', n'), t')) : InnerKids P net r st' := by
  obtain ⟨-, -, -, -, h1, -, -, -, h2⟩ := alphaExpand_wf w hi rfl e
  obtain ⟨news, h3, -⟩ := alphaExpandWith_ok e
  have k := alphaExpandWith_kept w hi rfl rfl e
  intro j m hj hm hI
  by_cases hji : j = i
  · rw [hji, h1] at hm
    cases hm
    by_cases hc : n.children = []
    · intro c hc'
      rw [h3] at hc'
      simp only [hc, List.nil_append] at hc'
      obtain ⟨a0, ha0, rfl⟩ := List.mem_range'.1 hc'
      have hidx : n.idx = i := w.idx i n hi
      obtain ⟨m, code, q1, q2, q3, q4⟩ := alphaExpandWith_policy (by
        rw [hidx]; exact (List.getElem?_eq_some_iff.1 hi).1) e a0 n.expandable[a0] (List.getElem?_eq_getElem ha0)
      refine ⟨m, by simpa using q1, ?_⟩
      unfold probsTensor at hq
      obtain ⟨codes, g1, g2⟩ := Res.bind_ok.1 hq
      split at g2
      · cases g2
        obtain ⟨ms, g3, g4⟩ := w.part i n hi
        have g5 : n.expandable.Perm ms := by simpa [childActions, hc] using g4
        have hst : n'.state = n.state := by rw [h3]
        rw [hst] at hI
        have hmem : code ∈ codes := by
          exact mapM_code g1 (List.getElem_mem ha0) q3
        have := hI ms n.expandable codes g3 g5 g1 ts x u row hx hu hsu code hmem
        simp only [Tensor.get, Net.policyTensor] at hp
        split at hp
        · cases hp
          simp only [Tensor.value] at q4
          split at q4
          · rw [← Except.ok.inj q4]
            exact this
          · cases q4
        · cases hp
      · cases g2
    · refine k.kids ?_ (h i n (hji ▸ hj) hi (by rw [h3] at hI; exact hI))
      rw [h3, hf i n hi hc]
      simp
  · by_cases hjl : j < st.length
    · rw [h2 j hji hjl] at hm
      exact k.kids rfl (h j m hj hm hI)
    · have := (alphaExpandWith_new w hi rfl e j m (by omega) hm).1
      intro c hc
      rw [this] at hc
      cases hc

theorem back_shape {v : Fl.F} {i : Nat} {st st' : Store G Fl} (w : WellFormed st) (hi : i < st.length)
    (h : backpropagate i v st = .ok st') : SameShape st st' ∧ ∀ j, ¬ Anc st j i → visitsAt st' j = visitsAt st j := by
  obtain ⟨st2, h1, h2, h3⟩ := backpropagate_spec v i st w.upLt hi
  rw [h] at h1
  cases Except.ok.inj h1
  refine ⟨h2, fun j hj => ?_⟩
  unfold visitsAt
  cases hn : st[j]? with
  | none =>
    rw [List.getElem?_eq_none (by
      have := h2.length
      have := List.getElem?_eq_none_iff.1 hn
      omega)]
  | some n => rw [h3 j n hn, if_neg hj]

/-- What a run of the loop over the selected nodes keeps; new nodes are not visited. -/
theorem expandPhase_inner {P : Fl.F → Prop} {net : Net Fl} {ts : List (Tensor Int)} {x : Tensor Int}
    {eval : Tensor Fl.F} {r : Nat} (hx : batchTensor ts = .ok x)
    (l : List (Nat × Nat)) {L : Nat} {st st' : Store G Fl} {t t' : Tape} (w : WellFormed st) (hf : Full st)
    (hk : InnerKids P net r st) (hl : ∀ p ∈ l, p.2 < L) (hL : L ≤ st.length)
    (h0 : ∀ j, L ≤ j → visitsAt st j = 0)
    (hts : ∀ p ∈ l, ∀ n : Node G Fl, st[p.2]? = some n → ∃ u, ts[p.1]? = some u ∧ G.tensor n.state = .ok u)
    (h : expandPhase net (net.policyTensor G x) eval l st t = .ok (st', t')) :
    WellFormed st' ∧ Full st' ∧ InnerKids P net r st' ∧ ∀ j, L ≤ j → visitsAt st' j = 0 := by
  induction l generalizing st t with
  | nil =>
    cases M.pure_ok.1 h
    exact ⟨w, hf, hk, h0⟩
  | cons p l ih =>
    obtain ⟨row, i⟩ := p
    unfold expandPhase at h
    obtain ⟨node, t1, h1, h⟩ := M.bind_ok.1 h
    rw [M.lift_ok, getNode_ok] at h1
    obtain ⟨p, t2, h2, h⟩ := M.bind_ok.1 h
    obtain ⟨e, t3, -, h⟩ := M.bind_ok.1 h
    obtain ⟨probs, t4, h4, h⟩ := M.bind_ok.1 h
    obtain ⟨⟨st1, node1⟩, t5, h5, h⟩ := M.bind_ok.1 h
    simp only at h
    obtain ⟨value, t6, -, h⟩ := M.bind_ok.1 h
    obtain ⟨st2, t7, h7, h8⟩ := M.bind_ok.1 h
    rw [M.lift_ok] at h7
    obtain ⟨w1, hup, hidx, hlen1, -, -, hv, -⟩ := alphaExpand_wf w h1.1 rfl h5
    obtain ⟨u, hu1, hu2⟩ := hts (row, i) (List.mem_cons_self ..) node h1.1
    have hil : i < st.length := (List.getElem?_eq_some_iff.1 h1.1).1
    have hiL : i < L := hl (row, i) (List.mem_cons_self ..)
    rw [hidx] at h7
    obtain ⟨hs, hb⟩ := back_shape w1 (by omega) h7.1
    have k2 := backpropagate_kept w1 (by omega) h7.1
    refine ih (hs.wellFormed w1) ((hf.expand w h1.1 rfl h5).shape hs)
      ((hk.expand w hf hx hu1 hu2 h1.1 (M.lift_ok.1 h2).1 (M.lift_ok.1 h4).1 h5).shape hs k2)
      (fun p hp => hl p (List.mem_cons_of_mem _ hp)) (by have := hs.length; omega) (fun j hj => ?_) (fun p hp n hn => ?_) h8
    · rw [hb j (fun ha => by have := ha.le w1.upLt; omega), hv j (by omega)]
      exact h0 j hj
    · have hpl : p.2 < st.length := Nat.lt_of_lt_of_le (hl p (List.mem_cons_of_mem _ hp)) hL
      obtain ⟨n2, d1, -, d2⟩ := (hup.trans hs.up) p.2 _ (List.getElem?_eq_getElem hpl)
      rw [hn] at d1
      cases d1
      rw [d2]
      exact hts p (List.mem_cons_of_mem _ hp) _ (List.getElem?_eq_getElem hpl)

/-! ## The invariant -/

/-- Below nodes whose children all have lost priors, only the last child is visited or selected. -/
structure OnlyLast (P : Fl.F → Prop) (net : Net Fl) (states : List G.S) (st : Store G Fl) (sel : List Nat) : Prop where
  full : Full st
  kids : InnerKids P net states.length st
  dead : ∀ (p c : Nat) (n : Node G Fl), st[p]? = some n → AllKids P st n → c ∈ n.children →
    n.children.getLast? ≠ some c → visitsAt st c = 0 ∧ ∀ k ∈ sel, ¬ Anc st c k

/-- No leaf is found below another child. -/
theorem OnlyLast.leaf {P : Fl.F → Prop} (hP : Lost P) {states : List G.S} {st : Store G Fl} (f : Forest states st) {g k p c : Nat}
    {n kn : Node G Fl} (hg : g < states.length) (hl : Leaf st g k kn) (hp : st[p]? = some n) (hk : AllKids P st n)
    (hc : c ∈ n.children) (hne : n.children.getLast? ≠ some c) : ¬ Anc st c k := by
  intro ha
  obtain ⟨k', kn', h1, h2, -⟩ := f.leaf hg
  rw [← (hl.unique h1).1] at h2
  obtain ⟨cn, hcn, hcp⟩ := f.wf.down p n c hp hc
  have hpc := (f.wf.up c cn p hcn hcp).1
  have hpk : Anc st p k := Anc.trans (.step hcn hcp .refl) ha
  have hgp : Anc st g p := by
    rcases anc_total h2 hpk with h | h
    · exact h
    · have hgl : g < st.length := Nat.lt_of_lt_of_le hg f.len
      rcases (anc_cases (List.getElem?_eq_getElem hgl)).1 h with h | ⟨q, hq, h⟩
      · rw [h]; exact .refl
      · rw [(f.roots g _ (List.getElem?_eq_getElem hgl)).2 hg] at hq
        cases hq
  obtain ⟨m, h3, h4⟩ := alphaLeaf_through f.wf st.length g (Nat.lt_of_lt_of_le hg f.len) hl.1 hp hgp hc ha (by omega)
  have := selectAlpha_last hP f.wf hp hk h3
  rw [h4] at this
  exact hne this

theorem vincN_none {n v : Nat} (h : n = 0) : vincN n v = v := by rw [h]; rfl

/-- The rows of a batch are the tensors of the selected nodes. -/
theorem mapM_tensor {st : Store G Fl} {sel : List Nat} {ts : List (Tensor Int)}
    (h : (sel.mapM fun i => do
      let n ← getNode st i
      G.tensor n.state) = .ok ts) {p : Nat × Nat} (hp : p ∈ (List.range sel.length).zip sel) {n : Node G Fl}
    (hn : st[p.2]? = some n) : ∃ u, ts[p.1]? = some u ∧ G.tensor n.state = .ok u := by
  have key : ∀ (sel : List Nat) (ts : List (Tensor Int)), (sel.mapM fun i => do
      let n ← getNode st i
      G.tensor n.state) = .ok ts → ∀ k : Nat, sel[k]? = some p.2 → ∃ u, ts[k]? = some u ∧ G.tensor n.state = .ok u := by
    intro sel
    induction sel with
    | nil => simp
    | cons i sel ih =>
      intro ts h k hk
      rw [List.mapM_cons] at h
      obtain ⟨y, h1, h⟩ := Res.bind_ok.1 h
      obtain ⟨ys, h2, h⟩ := Res.bind_ok.1 h
      cases Except.ok.inj h
      cases k with
      | zero =>
        obtain ⟨m, h3, h4⟩ := Res.bind_ok.1 h1
        rw [getNode_ok] at h3
        simp only [List.getElem?_cons_zero, Option.some.injEq] at hk
        rw [hk, hn] at h3
        cases h3
        exact ⟨y, rfl, h4⟩
      | succ k =>
        obtain ⟨u, h3, h4⟩ := ih ys h2 k (by simpa using hk)
        exact ⟨u, by simpa using h3, h4⟩
  obtain ⟨k, hk⟩ := List.getElem?_of_mem hp
  rw [List.getElem?_zip_eq_some] at hk
  obtain ⟨h1, h2⟩ := hk
  have hkl := (List.getElem?_eq_some_iff.1 h2).1
  rw [List.getElem?_range hkl] at h1
  cases h1
  obtain ⟨a, b⟩ := p
  exact key sel ts h _ h2

/-- What an iteration keeps, whatever the priors are; new nodes are not visited. -/
theorem iteration_inner {P : Fl.F → Prop} {net : Net Fl} {states : List G.S} {order : List Nat}
    {st st' : Store G Fl} {sel sel' : List Nat} {t t' : Tape} (f : Forest states st) (hs : SelOk states st sel)
    (hnd : order.Nodup) (ho : ∀ g, g ∈ order ↔ g < states.length) (hF : Full st) (hK : InnerKids P net states.length st)
    (h : parallelIteration net order st sel t = .ok ((st', sel'), t')) :
    Full st' ∧ InnerKids P net states.length st' ∧ ∀ j, st.length ≤ j → visitsAt st' j = 0 := by
  obtain ⟨-, -, -, -, hsel, -⟩ := parallelIteration_ok f hs hnd ho h
  unfold parallelIteration at h
  obtain ⟨st1, sel1, flag1, h1, h2⟩ := selectPhase_spec order f hnd (fun g hg => (ho g).1 hg) sel hs.len false
  rw [h1] at h
  obtain ⟨x, t1, h3, h⟩ := M.bind_ok.1 h
  rw [M.lift_ok] at h3
  obtain ⟨h3, rfl⟩ := h3
  injection h3 with h3
  subst h3
  simp only at h
  have k1 := h2.kept f
  have hl1 := h2.shape.length
  have hz : ∀ j, st.length ≤ j → visitsAt st1 j = 0 := by
    intro j hj
    unfold visitsAt
    rw [List.getElem?_eq_none (by omega)]
    rfl
  cases hf : flag1 with
  | false =>
    rw [hf] at h
    cases M.pure_ok.1 h
    exact ⟨hF.shape h2.shape, hK.shape h2.shape k1, hz⟩
  | true =>
    rw [hf] at h
    simp only [Bool.not_true, Bool.false_eq_true, if_false] at h
    obtain ⟨ts, t2, hts, h⟩ := M.bind_ok.1 h
    obtain ⟨x, t3, hx, h⟩ := M.bind_ok.1 h
    obtain ⟨st2, t4, h4, h⟩ := M.bind_ok.1 h
    cases M.pure_ok.1 h
    exact (expandPhase_inner (M.lift_ok.1 hx).1 _ (f.shape h2.shape).wf (hF.shape h2.shape) (hK.shape h2.shape k1)
      (fun p hp => hsel p.2 (List.of_mem_zip hp).2) (by omega) hz
      (fun p hp n hn => mapM_tensor (M.lift_ok.1 hts).1 hp hn) h4).2

theorem OnlyLast.iteration {P : Fl.F → Prop} (hP : Lost P) {net : Net Fl} {states : List G.S} {order : List Nat}
    {st st' : Store G Fl} {sel sel' : List Nat} {t t' : Tape} (f : Forest states st) (hs : SelOk states st sel)
    (hnd : order.Nodup) (ho : ∀ g, g ∈ order ↔ g < states.length) (I : OnlyLast P net states st sel)
    (h : parallelIteration net order st sel t = .ok ((st', sel'), t')) : OnlyLast P net states st' sel' := by
  have hk := parallelIteration_kept f hs hnd ho h
  obtain ⟨f', hs', hup, hlen, hsel, hleaf, hvis⟩ := parallelIteration_ok f hs hnd ho h
  have key := iteration_inner f hs hnd ho I.full I.kids h
  refine ⟨key.1, key.2.1, fun p c n hn hP' hc hne => ?_⟩
  by_cases hcl : c < st.length
  · obtain ⟨cn', h1, h2⟩ := f'.wf.down p n c hn hc
    obtain ⟨cn, h3⟩ : ∃ m, st[c]? = some m := ⟨_, List.getElem?_eq_getElem hcl⟩
    obtain ⟨m', e1, e2, -⟩ := hk c cn h3
    rw [h1] at e1
    cases e1
    obtain ⟨-, pn, -, h4, h5, -⟩ := f.wf.up c cn p h3 (e2.symm.trans h2)
    have hex := I.full p pn h4 (List.ne_nil_of_mem h5)
    obtain ⟨n', e3, -, -, -, e4⟩ := hk p pn h4
    rw [hn] at e3
    cases e3
    have hch := (e4 hex).2
    have hold : AllKids P st pn := by
      intro d hd
      obtain ⟨dm', d1, d2⟩ := hP' d (by rw [hch]; exact hd)
      obtain ⟨dm, d3, -⟩ := f.wf.down p pn d h4 hd
      obtain ⟨dm2, d4, -, -, d5, -⟩ := hk d dm d3
      rw [d1] at d4
      cases d4
      exact ⟨dm, d3, by rw [← d5]; exact d2⟩
    rw [hch] at hc hne
    obtain ⟨v0, s0⟩ := I.dead p c pn h4 hold hc hne
    have nosel : ∀ k ∈ sel', ¬ Anc st c k := by
      intro k hk'
      obtain ⟨g, hg⟩ := List.getElem?_of_mem hk'
      have hgl : g < states.length := by rw [← hs'.len]; exact (List.getElem?_eq_some_iff.1 hg).1
      obtain ⟨k1, kn, hl, -⟩ := f.leaf hgl
      rw [hleaf g k1 kn hgl hl] at hg
      split at hg
      · cases hg
        exact OnlyLast.leaf hP f hgl hl h4 hold hc hne
      · exact s0 k (List.mem_of_getElem? hg)
    refine ⟨?_, fun k hk' ha => nosel k hk' ((anc_iff f.wf.upLt hup (hsel k hk')).1 ha)⟩
    obtain ⟨r, hr, har⟩ := f.hasRoot c hcl
    obtain ⟨k1, kn, hl, -⟩ := f.leaf hr
    rw [hvis r c k1 kn hr har hl, vincN_none, v0]
    rw [if_neg (fun h => OnlyLast.leaf hP f hr hl h4 hold hc hne h.2), countOf_zero nosel]
    simp
  · refine ⟨key.2.2 c (by omega), fun k hk' ha => ?_⟩
    have := ha.le f'.wf.upLt
    have := hsel k hk'
    omega

theorem OnlyLast.iterate {P : Fl.F → Prop} (hP : Lost P) {net : Net Fl} {states : List G.S} {order : List Nat}
    (hnd : order.Nodup) (ho : ∀ g, g ∈ order ↔ g < states.length) (k : Nat)
    {st st' : Store G Fl} {sel sel' : List Nat} {t t' : Tape} (f : Forest states st) (hs : SelOk states st sel)
    (I : OnlyLast P net states st sel)
    (h : parallelIterate net order k st sel t = .ok ((st', sel'), t')) : OnlyLast P net states st' sel' := by
  induction k generalizing st sel t with
  | zero => cases M.pure_ok.1 h; exact I
  | succ k ih =>
    unfold parallelIterate at h
    obtain ⟨⟨st1, sel1⟩, t1, h1, h2⟩ := M.bind_ok.1 h
    obtain ⟨f1, s1, -⟩ := parallelIteration_ok f hs hnd ho h1
    exact ih f1 s1 (I.iteration hP f hs hnd ho h1) h2

/-! ## The start -/

theorem expandRoots_full {probs : Tensor Fl.F} (L : Nat) (is : List Nat) {st st' : Store G Fl} {t t' : Tape}
    (w : WellFormed st) (hf : Full st) (hL : L ≤ st.length) (hi : ∀ i ∈ is, i < L)
    (h0 : ∀ (j : Nat) (m : Node G Fl), L ≤ j → st[j]? = some m → m.children = [])
    (e : expandRoots probs is st t = .ok (st', t')) :
    Full st' ∧ ∀ (j : Nat) (m : Node G Fl), L ≤ j → st'[j]? = some m → m.children = [] := by
  induction is generalizing st t with
  | nil => cases M.pure_ok.1 e; exact ⟨hf, h0⟩
  | cons i is ih =>
    unfold expandRoots at e
    obtain ⟨root, t1, h1, e1⟩ := M.bind_ok.1 e
    rw [M.lift_ok, getNode_ok] at h1
    simp only at e1
    obtain ⟨row, t2, h2, e2⟩ := M.bind_ok.1 e1
    obtain ⟨⟨st1, n1⟩, t3, h3, h4⟩ := M.bind_ok.1 e2
    simp only at h4
    obtain ⟨w1, -, -, hlen, -, -, -, -, hold⟩ := alphaExpand_wf w (n := { root with visits := 1 }) h1.1 rfl h3
    refine ih w1 (hf.expand w (n := { root with visits := 1 }) h1.1 rfl h3) (by omega)
      (fun j hj => hi j (List.mem_cons_of_mem _ hj)) (fun j m hj hm => ?_) h4
    by_cases hjl : j < st.length
    · rw [hold j (by have := hi i (List.mem_cons_self ..); omega) hjl] at hm
      exact h0 j m hj hm
    · exact (alphaExpandWith_new w (n := { root with visits := 1 }) h1.1 rfl h3 j m (by omega) hm).1

theorem addRoots_bare (ss : List G.S) {st st' : Store G Fl} (h : addRoots ss st = .ok st')
    (h0 : ∀ m ∈ st, m.children = []) : ∀ m ∈ st', m.children = [] := by
  induction ss generalizing st with
  | nil =>
    simp only [addRoots] at h
    cases Except.ok.inj h
    exact h0
  | cons s ss ih =>
    unfold addRoots at h
    obtain ⟨⟨st1, k⟩, h1, h2⟩ := Res.bind_ok.1 h
    obtain ⟨ms, hm, rfl, rfl⟩ := addNode_ok.1 h1
    refine ih h2 fun m hm => ?_
    rcases List.mem_append.1 hm with hm | hm
    · exact h0 m hm
    · rw [List.mem_singleton.1 hm]; rfl

theorem OnlyLast.start {P : Fl.F → Prop} {net : Net Fl} {states : List G.S} {t t' : Tape} {st : Store G Fl}
    (h : parallelStart net states [] t = .ok (st, t')) :
    OnlyLast P net states st (List.replicate states.length 0) := by
  obtain ⟨f, -⟩ := parallelStart_ok h
  have hv := parallelStart_prior (P := fun _ => True) (fun _ _ _ _ _ => trivial) h
  obtain ⟨ts, x, r, t3, st3, codes, -, -, -, -, -, g3, -, -, g5⟩ := start_iff.1 h
  obtain ⟨f3, hlen⟩ := addRoots_ok states g3 [] forest_nil rfl
  simp only [List.nil_append] at f3 hlen
  have hb := addRoots_bare states g3 (by simp)
  obtain ⟨hF, h0⟩ := expandRoots_full states.length (List.range states.length) f3.wf
    (fun i n hn hc => absurd (hb n (List.mem_of_getElem? hn)) hc) (by omega) (fun i hi => List.mem_range.1 hi)
    (fun j m _ hm => hb m (List.mem_of_getElem? hm)) g5
  refine ⟨hF, fun i n hi hn _ c hc => ?_, fun p c n hn _ hc _ => ?_⟩
  · rw [h0 i n hi hn] at hc
    cases hc
  · obtain ⟨cn, h1, h2⟩ := f.wf.down p n c hn hc
    refine ⟨?_, fun k hk ha => ?_⟩
    · unfold visitsAt
      rw [h1]
      exact (hv cn (List.mem_of_getElem? h1) (by rw [h2]; exact Option.some_ne_none _)).2
    · have := (f.wf.up c cn p h1 h2).1
      have := ha.le f.wf.upLt
      rw [List.eq_of_mem_replicate hk] at this
      omega

/-- After a batched search, the priors below the roots. -/
theorem search_inner {P : Fl.F → Prop} {net : Net Fl} {states : List G.S} {order : List Nat}
    {iterations : Nat} {t t' : Tape} {st : Store G Fl} (ho : order.Perm (List.range states.length))
    (h : alphaMctsParallel net order states iterations [] t = .ok (st, t')) : InnerKids P net states.length st := by
  unfold alphaMctsParallel at h
  obtain ⟨st1, t1, h1, h0⟩ := M.bind_ok.1 h
  obtain ⟨⟨st2, sel2⟩, t2, h2, h3⟩ := M.bind_ok.1 h0
  cases M.pure_ok.1 h3
  obtain ⟨f1, -⟩ := parallelStart_ok h1
  have I := OnlyLast.start (P := P) h1
  have key : ∀ (k : Nat) {st st' : Store G Fl} {sel sel' : List Nat} {t t' : Tape}, Forest states st →
      SelOk states st sel → Full st → InnerKids P net states.length st →
      parallelIterate net order k st sel t = .ok ((st', sel'), t') → InnerKids P net states.length st' := by
    intro k
    induction k with
    | zero => intro st st' sel sel' t t' _ _ _ hK h; cases M.pure_ok.1 h; exact hK
    | succ k ih =>
      intro st st' sel sel' t t' f hs hF hK h
      unfold parallelIterate at h
      obtain ⟨⟨st1, sel1⟩, t1, h1, h2⟩ := M.bind_ok.1 h
      obtain ⟨f1, s1, -⟩ := parallelIteration_ok f hs (perm_range ho).1 (perm_range ho).2 h1
      obtain ⟨e1, e2, -⟩ := iteration_inner f hs (perm_range ho).1 (perm_range ho).2 hF hK h1
      exact ih f1 s1 e1 e2 h2
  exact key iterations f1 (selOk_replicate f1) I.full I.kids h2

/-- After a batched search: below a node all of whose children have lost priors only the last child has been visited, and
all nodes but the roots with such a state are such nodes. -/
theorem search_onlyLast {P : Fl.F → Prop} (hP : Lost P) {net : Net Fl} {states : List G.S} {order : List Nat}
    {iterations : Nat} {t t' : Tape} {st : Store G Fl} (ho : order.Perm (List.range states.length))
    (h : alphaMctsParallel net order states iterations [] t = .ok (st, t')) :
    ∃ sel, OnlyLast P net states st sel := by
  unfold alphaMctsParallel at h
  obtain ⟨st1, t1, h1, h0⟩ := M.bind_ok.1 h
  obtain ⟨⟨st2, sel2⟩, t2, h2, h3⟩ := M.bind_ok.1 h0
  cases M.pure_ok.1 h3
  obtain ⟨f1, -⟩ := parallelStart_ok h1
  exact ⟨sel2, (OnlyLast.start h1).iterate hP (perm_range ho).1 (perm_range ho).2 iterations f1 (selOk_replicate f1) h2⟩

end DieE.Mcts
