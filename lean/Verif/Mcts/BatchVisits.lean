import Verif.Mcts.Batch

/-! # After a batched search every root is fully expanded, and a root with moves has a visited child -/

namespace DieE.Mcts
variable {G : Game} {Fl : Floats}

/-- Node `i` has no move left to expand. -/
def Done (st : Store G Fl) (i : Nat) : Prop := ∀ n : Node G Fl, st[i]? = some n → n.expandable = []

theorem Done.shape {st st' : Store G Fl} {i : Nat} (h : Done st i) (hs : SameShape st st') : Done st' i := by
  intro n hn
  obtain ⟨m, h1, h2⟩ := hs.symm.get hn
  simp only [Node.shape, Prod.mk.injEq] at h2
  rw [← h2.2.2.2.2.2]
  exact h m h1

theorem alphaExpandWith_done {n n0 n' : Node G Fl} {prior : Nat → Res Fl.F} {st st' : Store G Fl} {i : Nat}
    {t t' : Tape} (w : WellFormed st) (hi : st[i]? = some n0) (hn : n.shape = n0.shape)
    (h : alphaExpandWith n prior st t = .ok ((st', n'), t')) :
    Done st' i ∧ ∀ j, j < st.length → Done st j → Done st' j := by
  obtain ⟨-, -, -, -, h1, -, -, -, h2⟩ := alphaExpand_wf w hi hn h
  obtain ⟨news, h3, -⟩ := alphaExpandWith_ok h
  have hd : Done st' i := by
    intro m hm
    rw [h1] at hm
    injection hm with hm
    rw [← hm, h3]
  refine ⟨hd, ?_⟩
  intro j hj hdj
  by_cases hji : j = i
  · rw [hji]; exact hd
  · intro m hm
    rw [h2 j hji hj] at hm
    exact hdj m hm

theorem expandRoots_done {states : List G.S} {probs : Tensor Fl.F} (is : List Nat) {st st' : Store G Fl} {t t' : Tape}
    (f : Forest states st) (his : ∀ i ∈ is, i < states.length) (h : expandRoots probs is st t = .ok (st', t')) :
    ∀ r, r < states.length → (r ∈ is ∨ Done st r) → Done st' r := by
  induction is generalizing st t with
  | nil =>
    have := M.pure_ok.1 h
    simp only [Prod.mk.injEq] at this
    obtain ⟨rfl, -⟩ := this
    simp
  | cons i is ih =>
    unfold expandRoots at h
    obtain ⟨root, t1, h1, h⟩ := M.bind_ok.1 h
    rw [M.lift_ok, getNode_ok] at h1
    simp only at h
    obtain ⟨row, t2, h2, h⟩ := M.bind_ok.1 h
    obtain ⟨⟨st1, n1⟩, t3, h3, h4⟩ := M.bind_ok.1 h
    simp only at h4
    obtain ⟨h5, h6⟩ := alphaExpandWith_done (n := { root with visits := 1 }) f.wf h1.1 rfl h3
    have f1 : Forest states st1 := f.expand (n := { root with visits := 1 }) h1.1 rfl h3
    intro r hr hd
    refine ih f1 (fun j hj => his j (List.mem_cons_of_mem _ hj)) h4 r hr ?_
    rcases hd with hd | hd
    · rcases List.mem_cons.1 hd with rfl | hd
      · exact .inr h5
      · exact .inl hd
    · exact .inr (h6 r (Nat.lt_of_lt_of_le hr f.len) hd)

theorem parallelStart_done {net : Net Fl} {states : List G.S} {st st' : Store G Fl} {t t' : Tape}
    (h : parallelStart net states st t = .ok (st', t')) : ∀ r, r < states.length → Done st' r := by
  unfold parallelStart at h
  obtain ⟨u, t1, h1, h⟩ := M.bind_ok.1 h
  rw [M.lift_ok] at h1
  have hst : st = [] := by
    have h1 := h1.1
    unfold assert at h1
    split at h1
    · rename_i he; simpa using he
    · cases h1
  subst hst
  obtain ⟨ts, t2, h2, h⟩ := M.bind_ok.1 h
  obtain ⟨x, t3, h3, h⟩ := M.bind_ok.1 h
  obtain ⟨policy, t4, h4, h⟩ := M.bind_ok.1 h
  obtain ⟨st1, t5, h5, h⟩ := M.bind_ok.1 h
  rw [M.lift_ok] at h5
  obtain ⟨probs, t6, h6, h7⟩ := M.bind_ok.1 h
  obtain ⟨f, -⟩ := addRoots_ok states h5.1 [] forest_nil rfl
  simp only [List.nil_append] at f
  intro r hr
  exact expandRoots_done _ f (by simp) h7 r hr (.inl (List.mem_range.2 hr))

theorem expandPhase_done {net : Net Fl} {policy eval : Tensor Fl.F} (l : List (Nat × Nat))
    {st st' : Store G Fl} {t t' : Tape} (w : WellFormed st)
    (h : expandPhase net policy eval l st t = .ok (st', t')) : ∀ j, j < st.length → Done st j → Done st' j := by
  induction l generalizing st t with
  | nil =>
    have := M.pure_ok.1 h
    simp only [Prod.mk.injEq] at this
    obtain ⟨rfl, -⟩ := this
    exact fun j _ hd => hd
  | cons p l ih =>
    obtain ⟨row, i⟩ := p
    unfold expandPhase at h
    obtain ⟨node, t1, h1, h⟩ := M.bind_ok.1 h
    rw [M.lift_ok, getNode_ok] at h1
    obtain ⟨p, t2, -, h⟩ := M.bind_ok.1 h
    obtain ⟨e, t3, -, h⟩ := M.bind_ok.1 h
    obtain ⟨probs, t4, -, h⟩ := M.bind_ok.1 h
    obtain ⟨⟨st1, node1⟩, t5, h5, h⟩ := M.bind_ok.1 h
    simp only at h
    obtain ⟨value, t6, -, h⟩ := M.bind_ok.1 h
    obtain ⟨st2, t7, h7, h8⟩ := M.bind_ok.1 h
    rw [M.lift_ok] at h7
    obtain ⟨w1, -, hidx, hlen1, -⟩ := alphaExpand_wf w h1.1 rfl h5
    obtain ⟨-, hd1⟩ := alphaExpandWith_done w h1.1 rfl h5
    have hil : i < st.length := (List.getElem?_eq_some_iff.1 h1.1).1
    rw [hidx] at h7
    obtain ⟨st2', h9, h10, -⟩ := backpropagate_spec value i st1 w1.upLt (by omega)
    rw [h9] at h7
    have h7 := h7.1
    injection h7 with h7
    subst h7
    have hlen2 := h10.length
    intro j hj hd
    exact ih (h10.wellFormed w1) h8 j (by omega) ((hd1 j hj hd).shape h10)

theorem parallelIteration_done {net : Net Fl} {states : List G.S} {order : List Nat} {st st' : Store G Fl}
    {sel sel' : List Nat} {t t' : Tape} (f : Forest states st) (hs : SelOk states st sel) (hnd : order.Nodup)
    (ho : ∀ g, g ∈ order ↔ g < states.length)
    (h : parallelIteration net order st sel t = .ok ((st', sel'), t')) :
    ∀ j, j < st.length → Done st j → Done st' j := by
  unfold parallelIteration at h
  obtain ⟨st1, sel1, flag1, h1, h2⟩ := selectPhase_spec order f hnd (fun g hg => (ho g).1 hg) sel hs.len false
  rw [h1] at h
  obtain ⟨x, t1, h3, h⟩ := M.bind_ok.1 h
  rw [M.lift_ok] at h3
  obtain ⟨h3, rfl⟩ := h3
  injection h3 with h3
  subst h3
  simp only at h
  have hlen1 := h2.shape.length
  cases hf : flag1 with
  | false =>
    rw [hf] at h
    have := M.pure_ok.1 h
    simp only [Prod.mk.injEq] at this
    obtain ⟨⟨rfl, rfl⟩, -⟩ := this
    exact fun j _ hd => hd.shape h2.shape
  | true =>
    rw [hf] at h
    simp only [Bool.not_true, Bool.false_eq_true, if_false] at h
    obtain ⟨ts, t2, -, h⟩ := M.bind_ok.1 h
    obtain ⟨x, t3, -, h⟩ := M.bind_ok.1 h
    obtain ⟨st2, t4, h4, h⟩ := M.bind_ok.1 h
    have := M.pure_ok.1 h
    simp only [Prod.mk.injEq] at this
    obtain ⟨⟨rfl, rfl⟩, -⟩ := this
    exact fun j hj hd => expandPhase_done _ (f.shape h2.shape).wf h4 j (by omega) (hd.shape h2.shape)

theorem le_vincN (k v : Nat) : v ≤ vincN k v := by
  induction k generalizing v with
  | zero => exact Nat.le_refl _
  | succ k ih =>
    have h1 : v ≤ vinc v := by unfold vinc; split <;> omega
    exact Nat.le_trans h1 (ih (vinc v))

theorem one_le_vincN {k v : Nat} (h : 1 ≤ k) : 1 ≤ vincN k v := by
  cases k with
  | zero => omega
  | succ k =>
    have h1 : 1 ≤ vinc v := by unfold vinc; split <;> omega
    exact Nat.le_trans h1 (le_vincN k (vinc v))

theorem countOf_pos {α : Type} {P : α → Prop} {l : List α} {x : α} (hx : x ∈ l) (h : P x) : 1 ≤ countOf P l := by
  unfold countOf
  exact List.countP_pos_iff.2 ⟨x, hx, by simpa using h⟩

/-- Each iteration visits the path of every game, and takes no visit away. -/
theorem parallelIteration_visits {net : Net Fl} {states : List G.S} {order : List Nat} {st st' : Store G Fl}
    {sel sel' : List Nat} {t t' : Tape} (f : Forest states st) (hs : SelOk states st sel) (hnd : order.Nodup)
    (ho : ∀ g, g ∈ order ↔ g < states.length)
    (h : parallelIteration net order st sel t = .ok ((st', sel'), t')) :
    (∀ i, i < st.length → visitsAt st i ≤ visitsAt st' i) ∧
    ∀ g k (kn : Node G Fl) i, g < states.length → Leaf st g k kn → Anc st g i → Anc st i k → 1 ≤ visitsAt st' i := by
  obtain ⟨-, -, -, -, -, h1, h2⟩ := parallelIteration_ok f hs hnd ho h
  constructor
  · intro i hi
    obtain ⟨r, hr, ha⟩ := f.hasRoot i hi
    obtain ⟨k, kn, hl, -⟩ := f.leaf hr
    rw [h2 r i k kn hr ha hl]
    exact le_vincN _ _
  · intro g k kn i hg hl ha hk
    rw [h2 g i k kn hg ha hl]
    apply one_le_vincN
    by_cases hw : G.winner kn.state = none
    · have hex : ∃ g, g < states.length ∧ ¬ EndsTerminal st g := by
        refine ⟨g, hg, ?_⟩
        rintro ⟨k', kn', hl', hw'⟩
        obtain ⟨-, rfl⟩ := hl'.unique hl
        exact hw' hw
      rw [if_pos hex]
      have hmem : k ∈ sel' := by
        have := h1 g k kn hg hl
        rw [if_pos hw] at this
        exact List.mem_of_getElem? this
      have := countOf_pos (P := fun k => Anc st i k) hmem hk
      omega
    · rw [if_pos ⟨hw, hk⟩]
      omega

theorem Anc.through {st : Store G Fl} (w : WellFormed st) {r k : Nat} {rn : Node G Fl} (hr : st[r]? = some rn)
    (ha : Anc st r k) : k ≠ r → ∃ c ∈ rn.children, Anc st c k := by
  induction ha with
  | refl => intro h; exact absurd rfl h
  | @step k p n h1 h2 h3 ih =>
    intro hne
    obtain ⟨hlt, pn, a, h4, h5, -⟩ := w.up k n p h1 h2
    by_cases hp : p = r
    · subst hp
      rw [hr] at h4
      injection h4 with h4
      subst h4
      exact ⟨k, h5, .refl⟩
    · obtain ⟨c, hc, hac⟩ := ih hp
      exact ⟨c, hc, .step h1 h2 hac⟩

/-- Node `g` has a visited child. -/
def ChildVisited (st : Store G Fl) (g : Nat) : Prop :=
  ∃ (n : Node G Fl) (c : Nat), st[g]? = some n ∧ c ∈ n.children ∧ 1 ≤ visitsAt st c

theorem parallelIterate_visited {net : Net Fl} {states : List G.S} {order : List Nat} (hnd : order.Nodup)
    (ho : ∀ g, g ∈ order ↔ g < states.length) (k : Nat) {st st' : Store G Fl} {sel sel' : List Nat} {t t' : Tape}
    (f : Forest states st) (hs : SelOk states st sel) (hd : ∀ r, r < states.length → Done st r)
    (h : parallelIterate net order k st sel t = .ok ((st', sel'), t')) :
    (∀ r, r < states.length → Done st' r) ∧
      ∀ g (n : Node G Fl), g < states.length → st[g]? = some n → (ChildVisited st g ∨ (k ≠ 0 ∧ n.children ≠ [])) →
        ChildVisited st' g := by
  induction k generalizing st sel t with
  | zero =>
    have := M.pure_ok.1 h
    simp only [Prod.mk.injEq] at this
    obtain ⟨⟨rfl, rfl⟩, -⟩ := this
    refine ⟨hd, ?_⟩
    rintro g n hg hn (hc | hc)
    · exact hc
    · exact absurd rfl hc.1
  | succ k ih =>
    unfold parallelIterate at h
    obtain ⟨⟨st1, sel1⟩, t1, h1, h2⟩ := M.bind_ok.1 h
    obtain ⟨f1, hs1, hup, hlen, -⟩ := parallelIteration_ok f hs hnd ho h1
    obtain ⟨hv1, hv2⟩ := parallelIteration_visits f hs hnd ho h1
    have hd1 : ∀ r, r < states.length → Done st1 r := fun r hr =>
      parallelIteration_done f hs hnd ho h1 r (Nat.lt_of_lt_of_le hr f.len) (hd r hr)
    obtain ⟨g1, g2⟩ := ih f1 hs1 hd1 h2
    refine ⟨g1, ?_⟩
    intro g n hg hn hc
    obtain ⟨n1, hn1, -⟩ := hup g n hn
    refine g2 g n1 hg hn1 (.inl ?_)
    have key : ∀ c, c ∈ n.children → 1 ≤ visitsAt st1 c → ChildVisited st1 g := by
      intro c hc hv
      obtain ⟨cn, hcn, hcp⟩ := f.wf.down g n c hn hc
      obtain ⟨cn1, hcn1, hcp1, -⟩ := hup c cn hcn
      obtain ⟨-, pn, a, h4, h5, -⟩ := f1.wf.up c cn1 g hcn1 (hcp1.trans hcp)
      exact ⟨pn, c, h4, h5, hv⟩
    rcases hc with ⟨n', c, hn', hc, hv⟩ | ⟨-, hc⟩
    · rw [hn] at hn'
      injection hn' with hn'
      subst hn'
      refine key c hc (Nat.le_trans hv (hv1 c ?_))
      obtain ⟨cn, hcn, -⟩ := f.wf.down g n c hn hc
      exact (List.getElem?_eq_some_iff.1 hcn).1
    · obtain ⟨k, kn, hl, ha, hkc⟩ := f.leaf hg
      have hne : k ≠ g := by
        rintro rfl
        have := hl.2
        rw [hn] at this
        injection this with this
        subst this
        exact hc hkc
      obtain ⟨c, hcm, hca⟩ := ha.through f.wf hn hne
      obtain ⟨cn, hcn, hcp⟩ := f.wf.down g n c hn hcm
      exact key c hcm (hv2 g k kn c hg hl (.step hcn hcp .refl) hca)

/-- After a search with at least one iteration: the roots are fully expanded, and a root with a legal move has a child
that was visited. -/
theorem alphaMctsParallel_visited {net : Net Fl} {order : List Nat} {states : List G.S} {iterations : Nat}
    {st st' : Store G Fl} {t t' : Tape} (ho : order.Perm (List.range states.length))
    (h : alphaMctsParallel net order states iterations st t = .ok (st', t')) (g : Nat) (s : G.S)
    (hg : states[g]? = some s) :
    ∃ (n : Node G Fl) (ms : List G.Mv), st'[g]? = some n ∧ n.state = s ∧ G.moves s = .ok ms ∧
      (childActions st' n).Perm ms ∧ (iterations ≠ 0 → ms ≠ [] → ∃ c ∈ n.children, 1 ≤ visitsAt st' c) := by
  have f' := alphaMctsParallel_forest ho h
  unfold alphaMctsParallel at h
  obtain ⟨st1, t1, h1, h⟩ := M.bind_ok.1 h
  obtain ⟨⟨st2, sel2⟩, t2, h2, h⟩ := M.bind_ok.1 h
  have := M.pure_ok.1 h
  simp only [Prod.mk.injEq] at this
  obtain ⟨rfl, -⟩ := this
  obtain ⟨f, -⟩ := parallelStart_ok h1
  have hd := parallelStart_done h1
  obtain ⟨d1, d2⟩ := parallelIterate_visited (perm_range ho).1 (perm_range ho).2 iterations f (selOk_replicate f) hd h2
  have hgl : g < states.length := (List.getElem?_eq_some_iff.1 hg).1
  obtain ⟨n, hn, hns⟩ := f'.state g s hg
  obtain ⟨ms, hm, hp⟩ := f'.wf.part g n hn
  rw [d1 g hgl n hn, List.nil_append] at hp
  rw [hns] at hm
  refine ⟨n, ms, hn, hns, hm, hp, ?_⟩
  intro hk hne
  obtain ⟨n0, hn0, hns0⟩ := f.state g s hg
  obtain ⟨ms0, hm0, hp0⟩ := f.wf.part g n0 hn0
  rw [hd g hgl n0 hn0, List.nil_append] at hp0
  rw [hns0, hm] at hm0
  injection hm0 with hm0
  subst hm0
  have hc0 : n0.children ≠ [] := by
    intro hc
    have : childActions st1 n0 = [] := by unfold childActions; rw [hc]; rfl
    rw [this] at hp0
    exact hne (List.Perm.eq_nil hp0.symm)
  obtain ⟨n', c, h3, h4, h5⟩ := d2 g n0 hgl hn0 (.inr ⟨hk, hc0⟩)
  rw [hn] at h3
  injection h3 with h3
  subst h3
  exact ⟨c, h4, h5⟩

end DieE.Mcts
