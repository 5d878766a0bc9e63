import Verif.Mcts.Batch

/-! # The batched search does not panic -/

namespace DieE.Mcts
variable {G : Game} {Fl : Floats}

/-- `Safe`, and in addition what the tensors need: legal moves have codes inside the action space, and the inputs of
the network have one common shape with a leading dimension of size one. -/
structure SafeNet (G : Game) (R : G.S → Prop) : Prop extends Safe G R where
  encode : ∀ s ms a, R s → G.moves s = .ok ms → a ∈ ms → ∃ c, G.encode s a = .ok c ∧ c < G.actionSpace
  tensor : ∃ sh : List Nat, ∀ s, R s → ∃ x, G.tensor s = .ok x ∧ x.shape = 1 :: sh
  space : 2 ≤ G.actionSpace

theorem alphaExpandLoop_progress {R : G.S → Prop} (hs : SafeNet G R) {n : Node G Fl} {prior : Nat → Res Fl.F}
    (hp : ∀ c, c < G.actionSpace → ∃ v, prior c = .ok v) (hR : R n.state) {ms : List G.Mv}
    (hm : G.moves n.state = .ok ms) (as : List G.Mv) (has : ∀ a ∈ as, a ∈ ms) (st : Store G Fl) (ch : List Nat)
    (hst : AllR R st) (t : Tape) :
    ∃ st' ch' t', alphaExpandLoop n prior as st ch t = .ok ((st', ch'), t') ∧ AllR R st' := by
  induction as generalizing st ch t with
  | nil => exact ⟨st, ch, t, rfl, hst⟩
  | cons a as ih =>
    have ha := has a (List.mem_cons_self ..)
    obtain ⟨c, hc1, hc2⟩ := hs.encode n.state ms a hR hm ha
    obtain ⟨v, hv⟩ := hp c hc2
    obtain ⟨next, t1, h1⟩ := hs.apply n.state ms a hR hm ha t
    have hRn := hs.closed n.state ms a next hR hm ha ⟨_, _, h1⟩
    obtain ⟨ms', hm'⟩ := hs.moves next hRn
    have h2 : addNode (Fl := Fl) st next (some n.idx) (some a) v =
        .ok (st ++ [freshNode next st.length (some n.idx) (some a) v ms'], st.length) :=
      addNode_ok.2 ⟨ms', hm', rfl, rfl⟩
    have hst' : AllR R (st ++ [freshNode (Fl := Fl) next st.length (some n.idx) (some a) v ms']) := by
      intro j m hj
      by_cases hjl : j < st.length
      · rw [List.getElem?_append_left hjl] at hj; exact hst j m hj
      · rw [List.getElem?_append_right (by omega)] at hj
        have hj0 : j - st.length = 0 := by
          have := (List.getElem?_eq_some_iff.1 hj).1
          simp at this
          omega
        rw [hj0] at hj
        simp at hj
        subst hj
        exact hRn
    obtain ⟨st', ch', t', h3, h4⟩ := ih (fun b hb => has b (List.mem_cons_of_mem _ hb)) _ (ch ++ [st.length]) hst' t1
    refine ⟨st', ch', t', ?_, h4⟩
    unfold alphaExpandLoop
    rw [M.bind_eq (M.lift_ok.2 ⟨hc1, rfl⟩), M.bind_eq (M.lift_ok.2 ⟨hv, rfl⟩), M.bind_eq h1,
      M.bind_eq (M.lift_ok.2 ⟨h2, rfl⟩)]
    exact h3

theorem alphaExpandWith_progress {R : G.S → Prop} (hs : SafeNet G R) {n n0 : Node G Fl} {prior : Nat → Res Fl.F}
    (hp : ∀ c, c < G.actionSpace → ∃ v, prior c = .ok v) {st : Store G Fl} (w : WellFormed st) (hR : AllR R st)
    {i : Nat} (hi : st[i]? = some n0) (hn : n.shape = n0.shape) (t : Tape) :
    ∃ st' n' t', alphaExpandWith n prior st t = .ok ((st', n'), t') ∧ AllR R st' := by
  have hsh := hn
  simp only [Node.shape, Prod.mk.injEq] at hsh
  obtain ⟨e1, e2, -, -, -, e6⟩ := hsh
  have hRn : R n.state := by rw [e1]; exact hR i n0 hi
  obtain ⟨ms, hm, hperm⟩ := w.part i n0 hi
  have hms : G.moves n.state = .ok ms := by rw [e1]; exact hm
  obtain ⟨st1, ch, t1, h1, h2⟩ := alphaExpandLoop_progress hs hp hRn hms n.expandable
    (fun a ha => hperm.subset (List.mem_append_left _ (e6 ▸ ha))) st [] hR t
  obtain ⟨news, rfl, h3, -⟩ := alphaExpandLoop_ok _ h1
  have hil : i < st.length := (List.getElem?_eq_some_iff.1 hi).1
  have hidx : n.idx = i := e2.trans (w.idx i n0 hi)
  have hset : setNode (st ++ news) { n with children := n.children ++ ch, expandable := [] } =
      .ok ((st ++ news).set n.idx { n with children := n.children ++ ch, expandable := [] }) := by
    unfold setNode
    rw [if_pos (by simp [hidx]; omega)]
  refine ⟨(st ++ news).set n.idx { n with children := n.children ++ ch, expandable := [] },
    { n with children := n.children ++ ch, expandable := [] }, t1, ?_, ?_⟩
  · unfold alphaExpandWith
    rw [M.bind_eq h1]
    show (M.lift (setNode _ _) >>= _) t1 = _
    rw [hset]
    rfl
  · intro j m hj
    rw [List.getElem?_set] at hj
    split at hj
    · split at hj
      · injection hj with hj
        subst hj
        exact hRn
      · cases hj
    · exact h2 j m hj

theorem codesOf_ok {R : G.S → Prop} (hs : SafeNet G R) {st : Store G Fl} (w : WellFormed st) (hR : AllR R st)
    {i : Nat} {n : Node G Fl} (hi : st[i]? = some n) :
    ∃ cs, codesOf n = .ok cs ∧ ∀ c ∈ cs, c < G.actionSpace := by
  obtain ⟨ms, hm, hperm⟩ := w.part i n hi
  have key : ∀ l : List G.Mv, (∀ a ∈ l, a ∈ ms) → ∃ cs, l.mapM (G.encode n.state) = .ok cs ∧
      ∀ c ∈ cs, c < G.actionSpace := by
    intro l
    induction l with
    | nil => intro _; exact ⟨[], rfl, by simp⟩
    | cons a l ih =>
      intro hl
      obtain ⟨cs, h1, h2⟩ := ih fun b hb => hl b (List.mem_cons_of_mem _ hb)
      obtain ⟨c, h3, h4⟩ := hs.encode n.state ms a (hR i n hi) hm (hl a (List.mem_cons_self ..))
      refine ⟨c :: cs, ?_, ?_⟩
      · rw [List.mapM_cons, h3, h1]; rfl
      · intro d hd
        rcases List.mem_cons.1 hd with rfl | hd
        · exact h4
        · exact h2 d hd
  exact key n.expandable fun a ha => hperm.subset (List.mem_append_left _ ha)

/-! ## Tensors -/

theorem mapM_ok {α β : Type} {f : α → Res β} {P : β → Prop} (l : List α) (h : ∀ a ∈ l, ∃ b, f a = .ok b ∧ P b) :
    ∃ bs, l.mapM f = .ok bs ∧ bs.length = l.length ∧ ∀ b ∈ bs, P b := by
  induction l with
  | nil => exact ⟨[], rfl, rfl, by simp⟩
  | cons a l ih =>
    obtain ⟨bs, h1, h2, h3⟩ := ih fun x hx => h x (List.mem_cons_of_mem _ hx)
    obtain ⟨b, h4, h5⟩ := h a (List.mem_cons_self ..)
    refine ⟨b :: bs, by rw [List.mapM_cons, h4, h1]; rfl, by simp [h2], ?_⟩
    intro c hc
    rcases List.mem_cons.1 hc with rfl | hc
    · exact h5
    · exact h3 c hc

theorem batchTensor_ok {sh : List Nat} {ts : List (Tensor Int)} (hne : ts ≠ []) (h : ∀ x ∈ ts, x.shape = 1 :: sh) :
    ∃ x, batchTensor ts = .ok x ∧ x.shape = ts.length :: sh := by
  cases ts with
  | nil => exact absurd rfl hne
  | cons a ts =>
    have ha : a.shape = 1 :: sh := h a (List.mem_cons_self ..)
    have hall : (∀ u ∈ ts, u.shape = a.shape) ∧ 0 ≤ a.shape.length :=
      ⟨fun u hu => by rw [ha, h u (List.mem_cons_of_mem _ hu)], Nat.zero_le _⟩
    have hstack : ∃ y, Tensor.stack (a :: ts) 0 = .ok y ∧ y.shape = (ts.length + 1) :: 1 :: sh := by
      unfold Tensor.stack
      simp only
      rw [if_pos hall]
      exact ⟨_, rfl, by simp [ha]⟩
    obtain ⟨y, h1, h2⟩ := hstack
    unfold batchTensor
    rw [h1]
    show ∃ x, y.squeezeDim1 = .ok x ∧ _
    unfold Tensor.squeezeDim1
    rw [h2]
    exact ⟨_, rfl, rfl⟩

theorem value_one {α : Type} {x : Tensor α} {n c : Nat} (hx : x.shape = [n]) (hc : c < n) : ∃ v, x.value [c] = .ok v := by
  unfold Tensor.value
  rw [hx]
  rw [if_pos]
  · exact ⟨_, rfl⟩
  · simp [Tensor.InShape, Tensor.numel, hc]

theorem get_ok {α : Type} {x : Tensor α} {n i : Nat} {sh : List Nat} (hx : x.shape = n :: sh) (hi : i < n) :
    ∃ y, x.get i = .ok y ∧ y.shape = sh := by
  unfold Tensor.get
  rw [hx]
  simp only
  rw [if_pos hi]
  exact ⟨_, rfl, rfl⟩

/-! ## The start -/

theorem addRoots_progress {R : G.S → Prop} (hs : SafeNet G R) (ss : List G.S) (hss : ∀ s ∈ ss, R s) (st : Store G Fl)
    (hst : AllR R st) : ∃ st', addRoots ss st = .ok st' ∧ AllR R st' := by
  induction ss generalizing st with
  | nil => exact ⟨st, rfl, hst⟩
  | cons s ss ih =>
    have hRs := hss s (List.mem_cons_self ..)
    obtain ⟨ms, hm⟩ := hs.moves s hRs
    have h1 : addNode (Fl := Fl) st s none none (Fl.ofInt 0) = .ok (st ++ [freshNode s st.length none none (Fl.ofInt 0) ms], st.length) :=
      addNode_ok.2 ⟨ms, hm, rfl, rfl⟩
    have hst' : AllR R (st ++ [freshNode (Fl := Fl) s st.length none none (Fl.ofInt 0) ms]) := by
      intro j m hj
      by_cases hjl : j < st.length
      · rw [List.getElem?_append_left hjl] at hj; exact hst j m hj
      · rw [List.getElem?_append_right (by omega)] at hj
        have hj0 : j - st.length = 0 := by
          have := (List.getElem?_eq_some_iff.1 hj).1
          simp at this
          omega
        rw [hj0] at hj
        simp at hj
        subst hj
        exact hRs
    obtain ⟨st', h2, h3⟩ := ih (fun x hx => hss x (List.mem_cons_of_mem _ hx)) _ hst'
    refine ⟨st', ?_, h3⟩
    unfold addRoots
    rw [h1]
    exact h2

theorem expandRoots_progress {R : G.S → Prop} (hs : SafeNet G R) {states : List G.S} {probs : Tensor Fl.F}
    (hp : probs.shape = [states.length, G.actionSpace]) (is : List Nat) (his : ∀ i ∈ is, i < states.length)
    (st : Store G Fl) (f : Forest states st) (hR : AllR R st) (t : Tape) :
    ∃ st' t', expandRoots probs is st t = .ok (st', t') ∧ AllR R st' := by
  induction is generalizing st t with
  | nil => exact ⟨st, t, rfl, hR⟩
  | cons i is ih =>
    have hi := his i (List.mem_cons_self ..)
    obtain ⟨n, hn⟩ : ∃ n, st[i]? = some n := ⟨_, List.getElem?_eq_getElem (Nat.lt_of_lt_of_le hi f.len)⟩
    obtain ⟨row, h1, h2⟩ := get_ok hp hi
    obtain ⟨st1, n1, t1, h3, h4⟩ := alphaExpandWith_progress (n := { n with visits := 1 }) hs
      (fun c hc => value_one h2 hc) f.wf hR hn rfl t
    have f1 := f.expand (n := { n with visits := 1 }) hn rfl h3
    obtain ⟨st2, t2, h5, h6⟩ := ih (fun j hj => his j (List.mem_cons_of_mem _ hj)) st1 f1 h4 t1
    refine ⟨st2, t2, ?_, h6⟩
    unfold expandRoots
    rw [M.bind_eq (M.lift_ok.2 ⟨getNode_ok.2 hn, rfl⟩)]
    simp only
    rw [M.bind_eq (M.lift_ok.2 ⟨h1, rfl⟩), M.bind_eq (show alphaExpandTensor _ row st t = _ from h3)]
    exact h5

theorem parallelStart_progress {R : G.S → Prop} (hs : SafeNet G R) {net : Net Fl} (ha : net.alphaOk = true)
    {states : List G.S} (hne : states ≠ []) (hstates : ∀ s ∈ states, R s) (t : Tape) :
    ∃ st' t', parallelStart net states ([] : Store G Fl) t = .ok (st', t') ∧ AllR R st' := by
  obtain ⟨sh, hsh⟩ := hs.tensor
  obtain ⟨ts, h1, h2, h3⟩ := mapM_ok (f := G.tensor) (P := fun x => x.shape = 1 :: sh) states
    fun s hs' => hsh s (hstates s hs')
  have htne : ts ≠ [] := by
    intro h
    rw [h] at h2
    exact hne (List.length_eq_zero_iff.1 h2.symm)
  obtain ⟨x, h4, h5⟩ := batchTensor_ok htne h3
  have hpol : (net.policyTensor G x).shape = [states.length, G.actionSpace] := by
    simp [Net.policyTensor, h5, h2]
  have hdir : ∃ p t1, applyDirichletTensor net (net.policyTensor G x) t = .ok (p, t1) ∧
      p.shape = [states.length, G.actionSpace] := by
    unfold applyDirichletTensor sampleDirichlet
    rw [hpol]
    rw [if_pos ⟨hs.space, ha⟩]
    exact ⟨_, _, rfl, rfl⟩
  obtain ⟨p, t1, h6, h7⟩ := hdir
  obtain ⟨st1, h8, h9⟩ := addRoots_progress (Fl := Fl) hs states hstates [] (by intro i n h; simp at h)
  obtain ⟨f, hlen⟩ := addRoots_ok states h8 [] forest_nil rfl
  simp only [List.nil_append] at f hlen
  have hprobs : ∃ probs, probsTensorBatch net st1 (List.range states.length) p = .ok probs ∧
      probs.shape = [states.length, G.actionSpace] := by
    obtain ⟨cs, g1, g2, g3⟩ := mapM_ok (f := fun i => do
        let n ← getNode st1 i
        codesOf n) (P := fun l : List Nat => ∀ c ∈ l, c < G.actionSpace) (List.range states.length) (by
      intro i hi
      rw [List.mem_range] at hi
      obtain ⟨n, hn⟩ : ∃ n, st1[i]? = some n := ⟨_, List.getElem?_eq_getElem (Nat.lt_of_lt_of_le hi f.len)⟩
      obtain ⟨cs, h10, h11⟩ := codesOf_ok hs f.wf h9 hn
      exact ⟨cs, by rw [getNode_ok.2 hn]; exact h10, h11⟩)
    unfold probsTensorBatch
    rw [g1]
    simp only [bind, Except.bind]
    rw [if_pos (by rw [h7]; exact g3)]
    exact ⟨_, rfl, h7⟩
  obtain ⟨probs, h10, h11⟩ := hprobs
  obtain ⟨st2, t2, h12, h13⟩ := expandRoots_progress hs h11 (List.range states.length) (by simp) st1 f h9 t1
  refine ⟨st2, t2, ?_, h13⟩
  unfold parallelStart
  rw [M.bind_eq (M.lift_ok.2 ⟨show assert ([] : Store G Fl).isEmpty = .ok () from rfl, rfl⟩),
    M.bind_eq (M.lift_ok.2 ⟨h1, rfl⟩), M.bind_eq (M.lift_ok.2 ⟨h4, rfl⟩), M.bind_eq h6,
    M.bind_eq (M.lift_ok.2 ⟨h8, rfl⟩), M.bind_eq (M.lift_ok.2 ⟨h10, rfl⟩)]
  exact h12

/-! ## The loop -/

theorem expandPhase_progress {R : G.S → Prop} (hs : SafeNet G R) {net : Net Fl} {states : List G.S}
    {policy eval : Tensor Fl.F} {rows : Nat} (hp : policy.shape = [rows, G.actionSpace]) (he : eval.shape = [rows, 1])
    (l : List (Nat × Nat)) (st : Store G Fl) (f : Forest states st) (hR : AllR R st)
    (hl : ∀ p ∈ l, p.1 < rows ∧ p.2 < st.length) (t : Tape) :
    ∃ st' t', expandPhase net policy eval l st t = .ok (st', t') ∧ AllR R st' := by
  induction l generalizing st t with
  | nil => exact ⟨st, t, rfl, hR⟩
  | cons p l ih =>
    obtain ⟨row, i⟩ := p
    obtain ⟨hrow, hi⟩ := hl (row, i) (List.mem_cons_self ..)
    simp only at hrow hi
    obtain ⟨n, hn⟩ : ∃ n, st[i]? = some n := ⟨_, List.getElem?_eq_getElem hi⟩
    obtain ⟨p, h1, h2⟩ := get_ok hp hrow
    obtain ⟨e, h3, h4⟩ := get_ok he hrow
    obtain ⟨cs, h5, h6⟩ := codesOf_ok hs f.wf hR hn
    have hprobs : ∃ probs, probsTensor net p n = .ok probs ∧ probs.shape = [G.actionSpace] := by
      unfold probsTensor
      rw [h5]
      simp only [bind, Except.bind]
      rw [if_pos (by rw [h2]; exact h6)]
      exact ⟨_, rfl, h2⟩
    obtain ⟨probs, h7, h8⟩ := hprobs
    obtain ⟨st1, n1, t1, h9, h10⟩ := alphaExpandWith_progress hs (fun c hc => value_one h8 hc) f.wf hR hn rfl t
    have f1 := f.expand hn rfl h9
    obtain ⟨w1, -, hidx, hlen1, -⟩ := alphaExpand_wf f.wf hn rfl h9
    obtain ⟨v, h11⟩ := value_one h4 (show 0 < 1 by omega)
    obtain ⟨st2, h12, h13, -⟩ := backpropagate_spec v n1.idx st1 w1.upLt (by omega)
    have hlen2 := h13.length
    obtain ⟨st3, t3, h14, h15⟩ := ih st2 (f1.shape h13) (h10.shape h13)
      (fun q hq => by have := hl q (List.mem_cons_of_mem _ hq); omega) t1
    refine ⟨st3, t3, ?_, h15⟩
    unfold expandPhase
    rw [M.bind_eq (M.lift_ok.2 ⟨getNode_ok.2 hn, rfl⟩), M.bind_eq (M.lift_ok.2 ⟨h1, rfl⟩),
      M.bind_eq (M.lift_ok.2 ⟨h3, rfl⟩), M.bind_eq (M.lift_ok.2 ⟨h7, rfl⟩),
      M.bind_eq (show alphaExpandTensor _ probs st t = _ from h9)]
    simp only
    rw [M.bind_eq (M.lift_ok.2 ⟨h11, rfl⟩), M.bind_eq (M.lift_ok.2 ⟨h12, rfl⟩)]
    exact h14

theorem parallelIteration_progress {R : G.S → Prop} (hs : SafeNet G R) {net : Net Fl} {states : List G.S}
    (hne : states ≠ []) {order : List Nat} (hnd : order.Nodup) (ho : ∀ g, g ∈ order ↔ g < states.length)
    {st : Store G Fl} (f : Forest states st) (hR : AllR R st) {sel : List Nat} (hsel : SelOk states st sel) (t : Tape) :
    ∃ st' sel' t', parallelIteration net order st sel t = .ok ((st', sel'), t') ∧ AllR R st' := by
  obtain ⟨st1, sel1, flag1, h1, h2⟩ := selectPhase_spec order f hnd (fun g hg => (ho g).1 hg) sel hsel.len false
  have f1 := f.shape h2.shape
  have hR1 := hR.shape h2.shape
  have hs1 := h2.selOk f hsel
  cases hf : flag1 with
  | false =>
    refine ⟨st1, sel1, t, ?_, hR1⟩
    unfold parallelIteration
    rw [M.bind_eq (M.lift_ok.2 ⟨h1, rfl⟩), hf]
    rfl
  | true =>
    obtain ⟨sh, hsh⟩ := hs.tensor
    have hmem : ∀ k ∈ sel1, k < st1.length := by
      intro k hk
      obtain ⟨g, hg⟩ := List.getElem?_of_mem hk
      exact (hs1.mem g k hg).1
    obtain ⟨ts, h3, h4, h5⟩ := mapM_ok (f := fun i => do
        let n ← getNode st1 i
        G.tensor n.state) (P := fun x => x.shape = 1 :: sh) sel1 (by
      intro k hk
      obtain ⟨n, hn⟩ : ∃ n, st1[k]? = some n := ⟨_, List.getElem?_eq_getElem (hmem k hk)⟩
      obtain ⟨x, g1, g2⟩ := hsh n.state (hR1 k n hn)
      exact ⟨x, by rw [getNode_ok.2 hn]; exact g1, g2⟩)
    have htne : ts ≠ [] := by
      intro h
      rw [h, hs1.len] at h4
      exact hne (List.length_eq_zero_iff.1 h4.symm)
    obtain ⟨x, h6, h7⟩ := batchTensor_ok htne h5
    obtain ⟨st2, t2, h8, h9⟩ := expandPhase_progress hs (net := net) (rows := sel1.length)
      (policy := net.policyTensor G x) (eval := net.evalTensor x) (by simp [Net.policyTensor, h7, h4])
      (by simp [Net.evalTensor, h7, h4]) ((List.range sel1.length).zip sel1) st1 f1 hR1 (by
        intro p hp
        have := List.of_mem_zip (a := p.1) (b := p.2) hp
        exact ⟨List.mem_range.1 this.1, hmem p.2 this.2⟩) t
    refine ⟨st2, sel1, t2, ?_, h9⟩
    unfold parallelIteration
    rw [M.bind_eq (M.lift_ok.2 ⟨h1, rfl⟩), hf]
    simp only [Bool.not_true, Bool.false_eq_true, if_false]
    rw [M.bind_eq (M.lift_ok.2 ⟨h3, rfl⟩), M.bind_eq (M.lift_ok.2 ⟨h6, rfl⟩), M.bind_eq h8]
    rfl

theorem parallelIterate_progress {R : G.S → Prop} (hs : SafeNet G R) {net : Net Fl} {states : List G.S}
    (hne : states ≠ []) {order : List Nat} (hnd : order.Nodup) (ho : ∀ g, g ∈ order ↔ g < states.length) (k : Nat)
    {st : Store G Fl} (f : Forest states st) (hR : AllR R st) {sel : List Nat} (hsel : SelOk states st sel) (t : Tape) :
    ∃ st' sel' t', parallelIterate net order k st sel t = .ok ((st', sel'), t') ∧ AllR R st' := by
  induction k generalizing st sel t with
  | zero => exact ⟨st, sel, t, rfl, hR⟩
  | succ k ih =>
    obtain ⟨st1, sel1, t1, h1, h2⟩ := parallelIteration_progress hs (net := net) hne hnd ho f hR hsel t
    obtain ⟨f1, hs1, -⟩ := parallelIteration_ok f hsel hnd ho h1
    obtain ⟨st2, sel2, t2, h3, h4⟩ := ih f1 h2 hs1 t1
    exact ⟨st2, sel2, t2, M.bind_ok.2 ⟨(st1, sel1), t1, h1, h3⟩, h4⟩

/-- The batched search returns for every non-empty batch of safe positions, and all positions of the tree are safe. -/
theorem alphaMctsParallel_progress {R : G.S → Prop} (hs : SafeNet G R) {net : Net Fl} (ha : net.alphaOk = true)
    {states : List G.S} (hne : states ≠ []) (hstates : ∀ s ∈ states, R s) {order : List Nat}
    (ho : order.Perm (List.range states.length)) (iterations : Nat) (t : Tape) :
    ∃ st' t', alphaMctsParallel net order states iterations ([] : Store G Fl) t = .ok (st', t') ∧ AllR R st' := by
  obtain ⟨st1, t1, h1, h2⟩ := parallelStart_progress (Fl := Fl) hs ha hne hstates t
  obtain ⟨f, -⟩ := parallelStart_ok h1
  obtain ⟨st2, sel2, t2, h3, h4⟩ := parallelIterate_progress hs (net := net) hne (perm_range ho).1 (perm_range ho).2
    iterations f h2 (selOk_replicate f) t1
  exact ⟨st2, t2, M.bind_ok.2 ⟨st1, t1, h1, M.bind_ok.2 ⟨(st2, sel2), t2, h3, rfl⟩⟩, h4⟩

end DieE.Mcts
