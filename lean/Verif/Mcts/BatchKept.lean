import Verif.Mcts.BatchVisits
import Verif.Mcts.Values
import Verif.Mcts.Select

/-! # What a batched search leaves unchanged, and which child of a root it follows -/

namespace DieE.Mcts
variable {G : Game} {Fl : Floats}

/-- `select_alpha` returns a child of maximal score; the comparison only has to agree with the order on the scores of the
children. -/
theorem selectAlpha_best {st : Store G Fl} (w : WellFormed st) {i : Nat} {n m : Node G Fl} (hi : st[i]? = some n)
    (le : Fl.F → Fl.F → Prop) (hrefl : ∀ a, le a a) (htrans : ∀ a b c, le a b → le b c → le a c)
    (hcmp : ∀ (c d : Nat) (x y : Node G Fl), c ∈ n.children → d ∈ n.children → st[c]? = some x → st[d]? = some y →
      (Fl.cmp (Fl.alphaUcb x.value x.visits x.policy n.visits) (Fl.alphaUcb y.value y.visits y.policy n.visits) = .gt →
        le (Fl.alphaUcb y.value y.visits y.policy n.visits) (Fl.alphaUcb x.value x.visits x.policy n.visits)) ∧
      (Fl.cmp (Fl.alphaUcb x.value x.visits x.policy n.visits) (Fl.alphaUcb y.value y.visits y.policy n.visits) ≠ .gt →
        le (Fl.alphaUcb x.value x.visits x.policy n.visits) (Fl.alphaUcb y.value y.visits y.policy n.visits)))
    (h : selectAlpha i st = .ok m) :
    ∃ c ∈ n.children, st[c]? = some m ∧ ∀ d ∈ n.children, ∀ dn : Node G Fl, st[d]? = some dn →
      le (Fl.alphaUcb dn.value dn.visits dn.policy n.visits) (Fl.alphaUcb m.value m.visits m.policy n.visits) := by
  obtain ⟨cs, h1, h2, h3⟩ := childNodes_spec w hi
  unfold selectAlpha at h
  rw [getNode_ok.2 hi] at h
  obtain ⟨cs', h4, h⟩ := Res.bind_ok.1 (show (childNodes st n >>= _) = _ from h)
  rw [h1] at h4
  cases Except.ok.inj h4
  obtain ⟨best, h5, h⟩ := Res.bind_ok.1 h
  cases best with
  | none => cases h
  | some b =>
    cases Except.ok.inj h
    obtain ⟨g1, g2⟩ := maxBy_le (fun a b : Node G Fl =>
        le (Fl.alphaUcb a.value a.visits a.policy n.visits) (Fl.alphaUcb b.value b.visits b.policy n.visits))
      (fun _ => hrefl _) (fun _ _ _ => htrans _ _ _) (by
        intro a ha b hb o ho
        obtain ⟨ca, hca, hca'⟩ := (h2 a).1 ha
        obtain ⟨cb, hcb, hcb'⟩ := (h2 b).1 hb
        rw [(ucb_child w hi hca hca').2, (ucb_child w hi hcb hcb').2] at ho
        cases ho
        exact hcmp ca cb a b hca hcb hca' hcb') h5
    obtain ⟨c, hc1, hc2⟩ := (h2 m).1 g1
    exact ⟨c, hc1, hc2, fun d hd dn hdn => g2 dn ((h2 dn).2 ⟨d, hd, hdn⟩)⟩

/-- The leaf found for a node with children lies below the child taken by `select_alpha`. -/
theorem Leaf.first {st : Store G Fl} (w : WellFormed st) {g k : Nat} {gn kn : Node G Fl} (hg : st[g]? = some gn)
    (hc : gn.children ≠ []) (hl : Leaf st g k kn) :
    ∃ c m, selectAlpha g st = .ok m ∧ c ∈ gn.children ∧ st[c]? = some m ∧ Anc st c k := by
  obtain ⟨c, m, h1, h2, h3⟩ := selectAlpha_spec w hg hc
  refine ⟨c, m, h1, h2, h3, ?_⟩
  have hgl := (List.getElem?_eq_some_iff.1 hg).1
  have hcl := (List.getElem?_eq_some_iff.1 h3).1
  obtain ⟨cn, h4, h5⟩ := w.down g gn c hg h2
  have hlt : g < c := (w.up c cn g h4 h5).1
  have h := hl.1
  unfold alphaLeafNode at h
  obtain ⟨f, hf⟩ : ∃ f, st.length = f + 1 := ⟨st.length - 1, by omega⟩
  rw [hf, alphaLeaf_step hg, if_neg (by simpa using hc), h1] at h
  have h : alphaLeaf st f m.idx = .ok k := h
  rw [w.idx c m h3] at h
  obtain ⟨k', kn', h6, -, h8, -⟩ := alphaLeaf_spec w f c hcl (by omega)
  rw [h] at h6
  cases Except.ok.inj h6
  exact h8

/-! ## Old nodes -/

/-- Old nodes keep their parent, move and prior, and expanded ones their children. -/
def Kept (st st' : Store G Fl) : Prop :=
  ∀ (i : Nat) (n : Node G Fl), st[i]? = some n → ∃ n' : Node G Fl, st'[i]? = some n' ∧ n'.parent = n.parent ∧
    n'.action = n.action ∧ n'.policy = n.policy ∧
    (n.expandable = [] → n'.expandable = [] ∧ n'.children = n.children)

theorem Kept.refl (st : Store G Fl) : Kept st st := fun _ n hn => ⟨n, hn, rfl, rfl, rfl, fun h => ⟨h, rfl⟩⟩

theorem Kept.trans {a b c : Store G Fl} (h : Kept a b) (h' : Kept b c) : Kept a c := by
  intro i n hn
  obtain ⟨n1, g1, g2, g3, g4, g5⟩ := h i n hn
  obtain ⟨n2, k1, k2, k3, k4, k5⟩ := h' i n1 g1
  refine ⟨n2, k1, k2.trans g2, k3.trans g3, k4.trans g4, fun he => ?_⟩
  obtain ⟨e1, e2⟩ := g5 he
  obtain ⟨d1, d2⟩ := k5 e1
  exact ⟨d1, d2.trans e2⟩

theorem backpropagate_kept {v : Fl.F} {i : Nat} {st st' : Store G Fl} (w : WellFormed st) (hi : i < st.length)
    (h : backpropagate i v st = .ok st') : Kept st st' := by
  obtain ⟨st2, h1, -, h3⟩ := backpropagate_spec v i st w.upLt hi
  rw [h] at h1
  cases Except.ok.inj h1
  intro j n hn
  have := h3 j n hn
  split at this
  · exact ⟨_, this, rfl, rfl, rfl, fun h => ⟨h, rfl⟩⟩
  · exact ⟨_, this, rfl, rfl, rfl, fun h => ⟨h, rfl⟩⟩

theorem alphaExpandWith_kept {n n0 n' : Node G Fl} {prior : Nat → Res Fl.F} {st st' : Store G Fl} {i : Nat} {t t' : Tape}
    (w : WellFormed st) (hi : st[i]? = some n0) (hn : n.shape = n0.shape) (hp : n.policy = n0.policy)
    (h : alphaExpandWith n prior st t = .ok ((st', n'), t')) : Kept st st' := by
  obtain ⟨-, -, -, -, h1, -, -, -, h2⟩ := alphaExpand_wf w hi hn h
  obtain ⟨news, h3, -⟩ := alphaExpandWith_ok h
  simp only [Node.shape, Prod.mk.injEq] at hn
  obtain ⟨e1, e2, e3, e4, e5, e6⟩ := hn
  intro j m hm
  have hjl := (List.getElem?_eq_some_iff.1 hm).1
  by_cases hji : j = i
  · subst hji
    rw [hi] at hm
    cases Option.some.inj hm
    refine ⟨n', h1, ?_, ?_, ?_, ?_⟩
    · rw [h3]; exact e3
    · rw [h3]; exact e5
    · rw [h3]; exact hp
    · intro he
      rw [h3, e6, he]
      refine ⟨rfl, ?_⟩
      simp [e4]
  · exact ⟨m, by rw [h2 j hji hjl]; exact hm, rfl, rfl, rfl, fun h => ⟨h, rfl⟩⟩

theorem expandPhase_kept {net : Net Fl} {policy eval : Tensor Fl.F} (l : List (Nat × Nat))
    {st st' : Store G Fl} {t t' : Tape} (w : WellFormed st)
    (h : expandPhase net policy eval l st t = .ok (st', t')) : Kept st st' := by
  induction l generalizing st t with
  | nil =>
    cases M.pure_ok.1 h
    exact Kept.refl _
  | cons p l ih =>
    obtain ⟨row, i⟩ := p
    unfold expandPhase at h
    obtain ⟨node, t1, h1, h⟩ := M.bind_ok.1 h
    rw [M.lift_ok, getNode_ok] at h1
    obtain ⟨p, t2, -, h⟩ := M.bind_ok.1 h
    obtain ⟨e, t3, -, h⟩ := M.bind_ok.1 h
    obtain ⟨probs, t4, -, h⟩ := M.bind_ok.1 h
    obtain ⟨⟨st1, node1⟩, t5, h5, h⟩ := M.bind_ok.1 h
    simp only at h
    obtain ⟨value, t6, -, h⟩ := M.bind_ok.1 h
    obtain ⟨st2, t7, h7, h8⟩ := M.bind_ok.1 h
    rw [M.lift_ok] at h7
    obtain ⟨w1, -, hidx, hlen1, -⟩ := alphaExpand_wf w h1.1 rfl h5
    have hil : i < st.length := (List.getElem?_eq_some_iff.1 h1.1).1
    rw [hidx] at h7
    have k1 := alphaExpandWith_kept w h1.1 rfl rfl h5
    have k2 := backpropagate_kept w1 (by omega) h7.1
    obtain ⟨st2', h9, h10, -⟩ := backpropagate_spec value i st1 w1.upLt (by omega)
    rw [h9] at h7
    cases Except.ok.inj h7.1
    exact (k1.trans k2).trans (ih (h10.wellFormed w1) h8)

theorem PhaseResult.kept {states : List G.S} {L : List Nat} {st st' : Store G Fl} {sel sel' : List Nat}
    {flag flag' : Bool} (f : Forest states st) (h : PhaseResult states L st sel flag st' sel' flag') : Kept st st' := by
  intro i n hn
  obtain ⟨r, hr, ha⟩ := f.hasRoot i (List.getElem?_eq_some_iff.1 hn).1
  obtain ⟨k, kn, hl, -⟩ := f.leaf hr
  have := h.tree r i k _ n kn (List.getElem?_eq_getElem hr) ha hn hl
  split at this
  · split at this
    · exact ⟨_, this, rfl, rfl, rfl, fun h => ⟨h, rfl⟩⟩
    · exact ⟨_, this, rfl, rfl, rfl, fun h => ⟨h, rfl⟩⟩
  · exact ⟨_, this, rfl, rfl, rfl, fun h => ⟨h, rfl⟩⟩

theorem parallelIteration_kept {net : Net Fl} {states : List G.S} {order : List Nat} {st st' : Store G Fl}
    {sel sel' : List Nat} {t t' : Tape} (f : Forest states st) (hs : SelOk states st sel) (hnd : order.Nodup)
    (ho : ∀ g, g ∈ order ↔ g < states.length)
    (h : parallelIteration net order st sel t = .ok ((st', sel'), t')) : Kept st st' := by
  unfold parallelIteration at h
  obtain ⟨st1, sel1, flag1, h1, h2⟩ := selectPhase_spec order f hnd (fun g hg => (ho g).1 hg) sel hs.len false
  rw [h1] at h
  obtain ⟨x, t1, h3, h⟩ := M.bind_ok.1 h
  rw [M.lift_ok] at h3
  obtain ⟨h3, rfl⟩ := h3
  injection h3 with h3
  subst h3
  simp only at h
  have k1 := h2.kept f
  cases hf : flag1 with
  | false =>
    rw [hf] at h
    cases M.pure_ok.1 h
    exact k1
  | true =>
    rw [hf] at h
    simp only [Bool.not_true, Bool.false_eq_true, if_false] at h
    obtain ⟨ts, t2, -, h⟩ := M.bind_ok.1 h
    obtain ⟨x, t3, -, h⟩ := M.bind_ok.1 h
    obtain ⟨st2, t4, h4, h⟩ := M.bind_ok.1 h
    cases M.pure_ok.1 h
    exact k1.trans (expandPhase_kept _ (f.shape h2.shape).wf h4)

/-! ## The priors of the children of the roots -/

theorem alphaExpandLoop_prior {P : Fl.F → Prop} {n : Node G Fl} {prior : Nat → Res Fl.F}
    (hP : ∀ c v, prior c = .ok v → P v) (as : List G.Mv) {st st' : Store G Fl} {ch ch' : List Nat} {t t' : Tape}
    (h : ∀ m ∈ st, m.parent ≠ none → P m.policy ∧ m.visits = 0)
    (e : alphaExpandLoop n prior as st ch t = .ok ((st', ch'), t')) : ∀ m ∈ st', m.parent ≠ none → P m.policy ∧ m.visits = 0 := by
  induction as generalizing st ch t with
  | nil => cases M.pure_ok.1 e; exact h
  | cons a as ih =>
    unfold alphaExpandLoop at e
    obtain ⟨code, t1, -, e⟩ := M.bind_ok.1 e
    obtain ⟨value, t2, h2, e⟩ := M.bind_ok.1 e
    obtain ⟨next, t3, -, e⟩ := M.bind_ok.1 e
    obtain ⟨⟨st1, c⟩, t4, h4, hrest⟩ := M.bind_ok.1 e
    rw [M.lift_ok, addNode_ok] at h4
    obtain ⟨⟨ms, -, rfl, rfl⟩, rfl⟩ := h4
    refine ih ?_ hrest
    intro m hm hp
    rcases List.mem_append.1 hm with hm | hm
    · exact h m hm hp
    · cases List.mem_singleton.1 hm
      exact ⟨hP code value (M.lift_ok.1 h2).1, rfl⟩

theorem alphaExpandWith_prior {P : Fl.F → Prop} {n n' : Node G Fl} {prior : Nat → Res Fl.F}
    (hP : ∀ c v, prior c = .ok v → P v) {st st' : Store G Fl} {t t' : Tape}
    (h : ∀ m ∈ st, m.parent ≠ none → P m.policy ∧ m.visits = 0) (hn : n.parent = none)
    (e : alphaExpandWith n prior st t = .ok ((st', n'), t')) : ∀ m ∈ st', m.parent ≠ none → P m.policy ∧ m.visits = 0 := by
  unfold alphaExpandWith at e
  obtain ⟨⟨st1, ch⟩, t1, h1, e⟩ := M.bind_ok.1 e
  obtain ⟨st2, t2, h2, e⟩ := M.bind_ok.1 e
  cases M.pure_ok.1 e
  have hst1 := alphaExpandLoop_prior hP _ h h1
  have h2 := (M.lift_ok.1 h2).1
  unfold setNode at h2
  split at h2
  · cases Except.ok.inj h2
    intro m hm hp
    rcases List.mem_or_eq_of_mem_set hm with hm | rfl
    · exact hst1 m hm hp
    · exact absurd hn hp
  · cases h2

theorem expandRoots_prior {P : Fl.F → Prop} {states : List G.S} {probs : Tensor Fl.F} (hP : ∀ idx, P (probs.at' idx))
    (is : List Nat) {st st' : Store G Fl} {t t' : Tape} (f : Forest states st) (his : ∀ i ∈ is, i < states.length)
    (h : ∀ m ∈ st, m.parent ≠ none → P m.policy ∧ m.visits = 0)
    (e : expandRoots probs is st t = .ok (st', t')) : ∀ m ∈ st', m.parent ≠ none → P m.policy ∧ m.visits = 0 := by
  induction is generalizing st t with
  | nil => cases M.pure_ok.1 e; exact h
  | cons i is ih =>
    unfold expandRoots at e
    obtain ⟨root, t1, h1, e⟩ := M.bind_ok.1 e
    rw [M.lift_ok, getNode_ok] at h1
    simp only at e
    obtain ⟨row, t2, h2, e⟩ := M.bind_ok.1 e
    obtain ⟨⟨st1, n1⟩, t3, h3, h4⟩ := M.bind_ok.1 e
    simp only at h4
    have f1 : Forest states st1 := f.expand (n := { root with visits := 1 }) h1.1 rfl h3
    refine ih f1 (fun j hj => his j (List.mem_cons_of_mem _ hj)) ?_ h4
    refine alphaExpandWith_prior (n := { root with visits := 1 }) ?_ h ?_ h3
    · intro c v hv
      obtain ⟨idx, rfl⟩ := value_mem hv
      have h2 := (M.lift_ok.1 h2).1
      unfold Tensor.get at h2
      split at h2
      · split at h2
        · cases h2
          exact hP _
        · cases h2
      · cases h2
    · exact (f.roots i root h1.1).2 (his i (List.mem_cons_self ..))

/-- Before the first iteration all nodes but the roots are unvisited and have a prior computed by
`turn_policy_to_probs_tensor_parallel` from a row of the policy mixed with noise. -/
theorem parallelStart_prior {P : Fl.F → Prop} {net : Net Fl}
    (hP : ∀ x row r codes c, P (net.priorBatch (fun c => net.mixTensor (net.policy x row c) (net.noise r c)) codes c))
    {states : List G.S} {st st' : Store G Fl} {t t' : Tape}
    (h : parallelStart net states st t = .ok (st', t')) : ∀ m ∈ st', m.parent ≠ none → P m.policy ∧ m.visits = 0 := by
  unfold parallelStart at h
  obtain ⟨u, t1, h1, h⟩ := M.bind_ok.1 h
  rw [M.lift_ok] at h1
  have hst : st = [] := by
    have h1 := h1.1
    unfold assert at h1
    split at h1
    · rename_i he; simpa using he
    · cases h1
  subst hst
  obtain ⟨ts, t2, h2, h⟩ := M.bind_ok.1 h
  obtain ⟨x, t3, h3, h⟩ := M.bind_ok.1 h
  obtain ⟨policy, t4, h4, h⟩ := M.bind_ok.1 h
  obtain ⟨st1, t5, h5, h⟩ := M.bind_ok.1 h
  rw [M.lift_ok] at h5
  obtain ⟨probs, t6, h6, h7⟩ := M.bind_ok.1 h
  rw [M.lift_ok] at h6
  obtain ⟨f, hlen⟩ := addRoots_ok states h5.1 [] forest_nil rfl
  simp only [List.nil_append] at f
  refine expandRoots_prior (states := states) ?_ _ f (by simp) ?_ h7
  · unfold applyDirichletTensor at h4
    obtain ⟨noise, t7, h8, h9⟩ := M.bind_ok.1 h4
    obtain ⟨r, rfl⟩ : ∃ r, noise = net.noise r := by
      unfold sampleDirichlet at h8
      split at h8
      · obtain ⟨r, t8, -, h10⟩ := M.bind_ok.1 h8
        cases M.pure_ok.1 h10
        exact ⟨r, rfl⟩
      · cases h8
    cases M.pure_ok.1 h9
    have h6 := h6.1
    unfold probsTensorBatch at h6
    obtain ⟨codes, -, h6⟩ := Res.bind_ok.1 h6
    split at h6
    · cases h6
      exact fun idx => hP x _ r _ _
    · cases h6
  · intro m hm hp
    obtain ⟨i, hi⟩ := List.getElem?_of_mem hm
    have hil := (List.getElem?_eq_some_iff.1 hi).1
    exact absurd ((f.roots i m hi).2 (by simp at hlen; omega)) hp

end DieE.Mcts
