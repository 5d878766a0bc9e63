import Verif.Mcts.CopyRun
import Verif.Mcts.BatchKept
import Verif.Mcts.PriorFacts

/-! # The priors of the children of the roots, from the start to the end of a batched search -/

namespace DieE.Mcts

variable {G : Game} {Fl : Floats}

/-- The children of node `i` have priors from a row of `probs`. -/
def PriorsAt (probs : Tensor Fl.F) (i : Nat) (st : Store G Fl) : Prop :=
  ∃ n : Node G Fl, st[i]? = some n ∧ n.expandable = [] ∧ ∃ row, probs.get i = .ok row ∧
    ∀ c ∈ n.children, ∃ (m : Node G Fl) (a : G.Mv) (code : Nat), st[c]? = some m ∧ m.action = some a ∧
      G.encode n.state a = .ok code ∧ row.value [code] = .ok m.policy

theorem Kept.state {states : List G.S} {st st' : Store G Fl} (f : Forest states st) (f' : Forest states st') {g : Nat}
    (hg : g < states.length) {n n' : Node G Fl} (hn : st[g]? = some n) (hn' : st'[g]? = some n') : n'.state = n.state := by
  obtain ⟨m, h1, h2⟩ := f.state g _ (List.getElem?_eq_getElem hg)
  obtain ⟨m', h3, h4⟩ := f'.state g _ (List.getElem?_eq_getElem hg)
  rw [hn] at h1
  rw [hn'] at h3
  cases h1
  cases h3
  rw [h2, h4]

theorem PriorsAt.kept {probs : Tensor Fl.F} {states : List G.S} {st st' : Store G Fl} (f : Forest states st)
    (f' : Forest states st') {g : Nat} (hg : g < states.length) (k : Kept st st') (h : PriorsAt probs g st) :
    PriorsAt probs g st' := by
  obtain ⟨n, h1, h2, row, h3, h4⟩ := h
  obtain ⟨n', k1, -, -, -, k2⟩ := k g n h1
  obtain ⟨k3, k4⟩ := k2 h2
  refine ⟨n', k1, k3, row, h3, fun c hc => ?_⟩
  rw [k4] at hc
  obtain ⟨m, a, code, e1, e2, e3, e4⟩ := h4 c hc
  obtain ⟨m', d1, -, d2, d3, -⟩ := k c m e1
  exact ⟨m', a, code, d1, d2.trans e2, by rw [Kept.state f f' hg h1 k1]; exact e3, by rw [d3]; exact e4⟩

theorem expandRoots_at {states : List G.S} {probs : Tensor Fl.F} (is : List Nat) {st st' : Store G Fl} {t t' : Tape}
    (f : Forest states st) (his : ∀ i ∈ is, i < states.length) (hnd : is.Nodup)
    (hch : ∀ i ∈ is, ∀ n, st[i]? = some n → n.children = [])
    (e : expandRoots probs is st t = .ok (st', t')) :
    Kept st st' ∧ Forest states st' ∧ ∀ i ∈ is, PriorsAt probs i st' := by
  induction is generalizing st t with
  | nil => cases M.pure_ok.1 e; exact ⟨Kept.refl _, f, by simp⟩
  | cons i is ih =>
    unfold expandRoots at e
    obtain ⟨root, t1, h1, e1⟩ := M.bind_ok.1 e
    rw [M.lift_ok, getNode_ok] at h1
    simp only at e1
    obtain ⟨row, t2, h2, e2⟩ := M.bind_ok.1 e1
    obtain ⟨⟨st1, n1⟩, t3, h3, h4⟩ := M.bind_ok.1 e2
    simp only at h4
    have f1 : Forest states st1 := f.expand (n := { root with visits := 1 }) h1.1 rfl h3
    have k1 : Kept st st1 := alphaExpandWith_kept f.wf (n := { root with visits := 1 }) h1.1 rfl rfl h3
    rw [List.nodup_cons] at hnd
    have hil : i < st.length := (List.getElem?_eq_some_iff.1 h1.1).1
    have hch1 : ∀ j ∈ is, ∀ n, st1[j]? = some n → n.children = [] := by
      intro j hj n hn
      obtain ⟨-, -, -, -, -, -, -, -, g⟩ := alphaExpand_wf f.wf (n := { root with visits := 1 }) h1.1 rfl h3
      have hjl : j < st.length := Nat.lt_of_lt_of_le (his j (List.mem_cons_of_mem _ hj)) f.len
      rw [g j (fun hji => hnd.1 (hji ▸ hj)) hjl] at hn
      exact hch j (List.mem_cons_of_mem _ hj) n hn
    obtain ⟨k2, f2, h5⟩ := ih f1 (fun j hj => his j (List.mem_cons_of_mem _ hj)) hnd.2 hch1 h4
    refine ⟨k1.trans k2, f2, fun j hj => ?_⟩
    rcases List.mem_cons.1 hj with rfl | hj
    · refine PriorsAt.kept f1 f2 (his _ (List.mem_cons_self ..)) k2 ?_
      obtain ⟨-, -, -, -, g1, -⟩ := alphaExpand_wf f.wf (n := { root with visits := 1 }) h1.1 rfl h3
      obtain ⟨news, g2, -, g3, -⟩ := alphaExpandWith_ok h3
      refine ⟨n1, g1, by rw [g2], row, (M.lift_ok.1 h2).1, fun c hc => ?_⟩
      have hroot := hch j (List.mem_cons_self ..) root h1.1
      have hc2 : c ∈ List.range' st.length root.expandable.length := by
        rw [g2] at hc
        simp only [hroot, List.nil_append] at hc
        exact hc
      obtain ⟨a0, ha0, rfl⟩ := List.mem_range'.1 hc2
      have hidx : root.idx = j := f.wf.idx j root h1.1
      obtain ⟨m, code, q1, q2, q3, q4⟩ := alphaExpandWith_policy (by show root.idx < _; rw [hidx]; exact hil) h3 a0
        root.expandable[a0] (List.getElem?_eq_getElem ha0)
      refine ⟨m, _, code, by simpa using q1, q2, ?_, q4⟩
      rw [g2]
      exact q3
    · exact h5 j hj

theorem parallelIterate_kept {net : Net Fl} {states : List G.S} {order : List Nat} (hnd : order.Nodup)
    (ho : ∀ g, g ∈ order ↔ g < states.length) (k : Nat) {st st' : Store G Fl} {sel sel' : List Nat} {t t' : Tape}
    (f : Forest states st) (hs : SelOk states st sel)
    (h : parallelIterate net order k st sel t = .ok ((st', sel'), t')) : Kept st st' := by
  induction k generalizing st sel t with
  | zero => cases M.pure_ok.1 h; exact Kept.refl _
  | succ k ih =>
    unfold parallelIterate at h
    obtain ⟨⟨st1, sel1⟩, t1, h1, h2⟩ := M.bind_ok.1 h
    have k1 := parallelIteration_kept f hs hnd ho h1
    have := parallelIterate_ok (net := net) hnd ho 1 f hs (st' := st1) (sel' := sel1) (t := t) (t' := t1) (by
      unfold parallelIterate
      exact M.bind_ok.2 ⟨(st1, sel1), t1, h1, rfl⟩)
    exact k1.trans (ih this.1 this.2.1 h2)

/-- The priors of the children of the roots in a batched search: one row of noise for all games, mixed with the row of the
policy of the game before the codes of the legal moves are selected. -/
theorem root_priors {net : Net Fl} {states : List G.S} {order : List Nat} {iterations : Nat} {t t' : Tape} {st : Store G Fl}
    (ho : order.Perm (List.range states.length))
    (h : alphaMctsParallel net order states iterations [] t = .ok (st, t')) :
    ∃ ts x r, states.mapM G.tensor = .ok ts ∧ batchTensor ts = .ok x ∧ ∀ (g : Nat) (s : G.S), states[g]? = some s →
      ∃ (n : Node G Fl) (ms : List G.Mv) (codes : List Nat), st[g]? = some n ∧ n.state = s ∧ G.moves s = .ok ms ∧
        ms.mapM (G.encode s) = .ok codes ∧
        ∀ c ∈ n.children, ∃ (m : Node G Fl) (a : G.Mv) (code : Nat), st[c]? = some m ∧ m.action = some a ∧
          G.encode s a = .ok code ∧
          m.policy = net.priorBatch (fun c => net.mixTensor (net.policy x g c) (net.noise r c)) codes code := by
  unfold alphaMctsParallel at h
  obtain ⟨st1, t1, h1, h0⟩ := M.bind_ok.1 h
  obtain ⟨⟨st2, sel2⟩, t2, h2, h3⟩ := M.bind_ok.1 h0
  cases M.pure_ok.1 h3
  obtain ⟨f1, -⟩ := parallelStart_ok h1
  have k := parallelIterate_kept (perm_range ho).1 (perm_range ho).2 iterations f1 (selOk_replicate f1) h2
  have f2 := (parallelIterate_ok (perm_range ho).1 (perm_range ho).2 iterations f1 (selOk_replicate f1) h2).1
  obtain ⟨ts, x, r, t3, st3, codes, g1, g2, -, -, -, g3, g4, -, g5⟩ := start_iff.1 h1
  obtain ⟨f3, hlen⟩ := addRoots_ok states g3 [] forest_nil rfl
  simp only [List.nil_append] at f3
  have hfresh : ∀ (g : Nat) (s : G.S), states[g]? = some s → ∃ ms, G.moves s = .ok ms ∧
      st3[g]? = some (freshNode s g none none (Fl.ofInt 0) ms) := by
    have hk : ∀ g : Nat, ∃ ms : List G.Mv, ∀ s, states[g]? = some s → G.moves s = .ok ms := by
      intro g
      cases hs : states[g]? with
      | none => exact ⟨[], by simp⟩
      | some s =>
        obtain ⟨n, e1, e2⟩ := f3.state g s hs
        obtain ⟨ms, e3, -⟩ := f3.wf.part g n e1
        rw [e2] at e3
        exact ⟨ms, fun s' hs' => by cases hs'; exact e3⟩
    choose ms hms using hk
    obtain ⟨news, e1, e2, e3⟩ := addRoots_all (Fl := Fl) states ms [] (fun g s hs => hms g s hs)
    rw [g3] at e1
    have e1 := Except.ok.inj e1
    intro g s hs
    refine ⟨ms g, hms g s hs, ?_⟩
    have := e3 g s hs
    rw [e1]
    simpa using this
  have hroots := expandRoots_at (List.range states.length) f3 (fun i hi => List.mem_range.1 hi) List.nodup_range
    (fun i hi n hn => by
      obtain ⟨ms, -, e⟩ := hfresh i _ (List.getElem?_eq_getElem (List.mem_range.1 hi))
      rw [hn] at e
      cases e
      rfl) g5
  refine ⟨ts, x, r, g1, g2, fun g s hs => ?_⟩
  have hg : g < states.length := (List.getElem?_eq_some_iff.1 hs).1
  obtain ⟨ms, e1, e2⟩ := hfresh g s hs
  obtain ⟨n, p1, -, row, p3, p4⟩ := (hroots.2.2 g (List.mem_range.2 hg)).kept f1 f2 hg k
  obtain ⟨n', p5, p6⟩ := f2.state g s hs
  rw [p1] at p5
  cases p5
  have hcode : ∃ l, codes[g]? = some l ∧ ms.mapM (G.encode s) = .ok l := by
    have key : ∀ (is : List Nat) (codes : List (List Nat)) (j : Nat),
        is.mapM (fun i => do
          let n ← getNode st3 i
          codesOf n) = .ok codes → is[j]? = some g → ∃ l, codes[j]? = some l ∧ ms.mapM (G.encode s) = .ok l := by
      intro is
      induction is with
      | nil => intro codes j _ h; simp at h
      | cons i is ih =>
        intro codes j hm hj
        rw [List.mapM_cons] at hm
        obtain ⟨l, q1, q2⟩ := Res.bind_ok.1 hm
        obtain ⟨ls, q3, q4⟩ := Res.bind_ok.1 q2
        have : codes = l :: ls := by simpa [pure, Except.pure] using q4.symm
        subst this
        cases j with
        | zero =>
          simp only [List.getElem?_cons_zero, Option.some.injEq] at hj
          subst hj
          obtain ⟨n0, q5, q6⟩ := Res.bind_ok.1 q1
          rw [getNode_ok, e2] at q5
          cases q5
          exact ⟨l, rfl, q6⟩
        | succ j => exact ih ls j q3 (by simpa using hj)
    exact key _ codes g g4 (List.getElem?_range hg)
  obtain ⟨l, hl1, hl2⟩ := hcode
  refine ⟨n, ms, l, p1, p6, e1, hl2, fun c hc => ?_⟩
  obtain ⟨m, a, code, q1, q2, q3, q4⟩ := p4 c hc
  refine ⟨m, a, code, q1, q2, by rw [← p6]; exact q3, ?_⟩
  unfold Tensor.get at p3
  split at p3
  · split at p3
    · cases p3
      unfold Tensor.value at q4
      split at q4
      · have := Except.ok.inj q4
        rw [← this]
        have hl : codes.getD g [] = l := by rw [List.getD_eq_getElem?_getD, hl1]; rfl
        show net.priorBatch _ (codes.getD g []) code = _
        rw [hl]
        rfl
      · cases q4
    · cases p3
  · cases p3

end DieE.Mcts
