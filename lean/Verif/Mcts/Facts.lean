import Verif.Mcts.Spec

/-! # Lemmas about stores, selection, expansion and backpropagation -/

namespace DieE

namespace M

theorem bind_ok {α β : Type} {x : M α} {f : α → M β} {t : Tape} {r : β × Tape} :
    (x >>= f) t = .ok r ↔ ∃ a t', x t = .ok (a, t') ∧ f a t' = .ok r := by
  show (match x t with | .error e => (Except.error e : Res (β × Tape)) | .ok (a, t') => f a t') = .ok r ↔ _
  cases h : x t with
  | error e => simp
  | ok p =>
    obtain ⟨a, t'⟩ := p
    constructor
    · intro h'; exact ⟨a, t', rfl, h'⟩
    · rintro ⟨b, u, h1, h2⟩
      injection h1 with h1
      injection h1 with h1 h3
      subst h1 h3
      exact h2

theorem bind_eq {α β : Type} {x : M α} {f : α → M β} {t t' : Tape} {a : α} (h : x t = .ok (a, t')) :
    (x >>= f) t = f a t' := by
  show (match x t with | .error e => (Except.error e : Res (β × Tape)) | .ok (a, t') => f a t') = _
  rw [h]

theorem bind_err {α β : Type} {x : M α} {f : α → M β} {t : Tape} {e : Panic} (h : x t = .error e) :
    (x >>= f) t = .error e := by
  show (match x t with | .error e => (Except.error e : Res (β × Tape)) | .ok (a, t') => f a t') = _
  rw [h]

theorem pure_ok {α : Type} {a : α} {t : Tape} {r : α × Tape} : (pure a : M α) t = .ok r ↔ r = (a, t) := by
  show Except.ok (a, t) = Except.ok r ↔ _
  constructor
  · intro h; injection h with h; exact h.symm
  · intro h; rw [h]

theorem lift_ok {α : Type} {x : Res α} {t : Tape} {a : α} {t' : Tape} :
    M.lift x t = .ok (a, t') ↔ x = .ok a ∧ t' = t := by
  unfold M.lift
  cases x with
  | error e => simp
  | ok b => simp [eq_comm]

theorem fail_ok {α : Type} {p : Panic} {t : Tape} {r : α × Tape} : (M.fail p : M α) t = .ok r ↔ False := by
  simp [M.fail]

end M

theorem Res.bind_ok {α β : Type} {x : Res α} {f : α → Res β} {r : β} :
    (x >>= f) = .ok r ↔ ∃ a, x = .ok a ∧ f a = .ok r := by
  cases x <;> simp [bind, Except.bind]

theorem Res.pure_ok {α : Type} {a r : α} : (pure a : Res α) = .ok r ↔ r = a := by
  simp [pure, Except.pure, eq_comm]

namespace Mcts
variable {G : Game} {Fl : Floats}

/-! ## Basic store facts -/

theorem getNode_ok {st : Store G Fl} {i : Nat} {n : Node G Fl} : getNode st i = .ok n ↔ st[i]? = some n := by
  unfold getNode
  split
  · rename_i m h; rw [h]; simp
  · rename_i h; rw [h]; simp

/-- The node made by `Node::new`, given its moves. -/
def freshNode (s : G.S) (k : Nat) (p : Option Nat) (a : Option G.Mv) (pol : Fl.F) (ms : List G.Mv) : Node G Fl where
  state := s
  idx := k
  parent := p
  children := []
  visits := 0
  value := Fl.ofInt 0
  policy := pol
  action := a
  expandable := ms

theorem addNode_ok {st st' : Store G Fl} {s : G.S} {p : Option Nat} {a : Option G.Mv} {pol : Fl.F} {k : Nat} :
    addNode st s p a pol = .ok (st', k) ↔ ∃ ms, G.moves s = .ok ms ∧ k = st.length ∧
      st' = st ++ [freshNode s st.length p a pol ms] := by
  unfold addNode Node.new freshNode
  cases h : G.moves s with
  | error e => simp [bind, Except.bind]
  | ok ms => simp [bind, Except.bind, pure, Except.pure, eq_comm, and_comm]

/-! ## The part of a node that the visit counts do not touch -/

/-- Everything but `visits`, `value` and `policy`. -/
def Node.shape (n : Node G Fl) : G.S × Nat × Option Nat × List Nat × Option G.Mv × List G.Mv :=
  (n.state, n.idx, n.parent, n.children, n.action, n.expandable)

/-- Same tree, possibly different numbers. -/
def SameShape (st st' : Store G Fl) : Prop := st.map Node.shape = st'.map Node.shape

theorem SameShape.symm {st st' : Store G Fl} (h : SameShape st st') : SameShape st' st := Eq.symm h
theorem SameShape.trans {a b c : Store G Fl} (h : SameShape a b) (h' : SameShape b c) : SameShape a c := Eq.trans h h'

theorem SameShape.length {st st' : Store G Fl} (h : SameShape st st') : st.length = st'.length := by
  have := congrArg List.length h
  simpa using this

theorem SameShape.get {st st' : Store G Fl} (h : SameShape st st') {i : Nat} {n : Node G Fl} (hi : st[i]? = some n) :
    ∃ n', st'[i]? = some n' ∧ n'.shape = n.shape := by
  have h1 : (st.map Node.shape)[i]? = some n.shape := by simp [hi]
  rw [h] at h1
  simpa [List.getElem?_map, Option.map_eq_some_iff] using h1

theorem SameShape.childActions {st st' : Store G Fl} (h : SameShape st st') {n n' : Node G Fl}
    (hn : n'.shape = n.shape) : childActions st' n' = childActions st n := by
  simp only [Node.shape, Prod.mk.injEq] at hn
  unfold Mcts.childActions
  rw [hn.2.2.2.1]
  congr 1
  funext c
  cases hc : st[c]? with
  | some m =>
    obtain ⟨m', hm', hs⟩ := h.get hc
    simp only [Node.shape, Prod.mk.injEq] at hs
    rw [hm']
    simpa using hs.2.2.2.2.1
  | none =>
    cases hc' : st'[c]? with
    | none => rfl
    | some m' =>
      obtain ⟨m, hm, -⟩ := h.symm.get hc'
      rw [hc] at hm
      cases hm

theorem SameShape.wellFormed {st st' : Store G Fl} (h : SameShape st st') (w : WellFormed st) : WellFormed st' := by
  constructor
  · intro i n' hi
    obtain ⟨n, hn, hs⟩ := h.symm.get hi
    simp only [Node.shape, Prod.mk.injEq] at hs
    rw [← hs.2.1]; exact w.idx i n hn
  · intro i n' hi hp
    obtain ⟨n, hn, hs⟩ := h.symm.get hi
    simp only [Node.shape, Prod.mk.injEq] at hs
    rw [← hs.2.2.2.2.1]; exact w.root i n hn (by rw [hs.2.2.1]; exact hp)
  · intro i n' p hi hp
    obtain ⟨n, hn, hs⟩ := h.symm.get hi
    simp only [Node.shape, Prod.mk.injEq] at hs
    obtain ⟨hlt, pn, a, h1, h2, h3, h4⟩ := w.up i n p hn (by rw [hs.2.2.1]; exact hp)
    obtain ⟨pn', hpn', hps⟩ := h.get h1
    simp only [Node.shape, Prod.mk.injEq] at hps
    refine ⟨hlt, pn', a, hpn', ?_, ?_, ?_⟩
    · rw [hps.2.2.2.1]; exact h2
    · rw [← hs.2.2.2.2.1]; exact h3
    · rw [hps.1, ← hs.1]; exact h4
  · intro i n' c hi hc
    obtain ⟨n, hn, hs⟩ := h.symm.get hi
    simp only [Node.shape, Prod.mk.injEq] at hs
    obtain ⟨cn, h1, h2⟩ := w.down i n c hn (by rw [hs.2.2.2.1]; exact hc)
    obtain ⟨cn', hcn', hcs⟩ := h.get h1
    simp only [Node.shape, Prod.mk.injEq] at hcs
    exact ⟨cn', hcn', by rw [hcs.2.2.1]; exact h2⟩
  · intro i n' hi
    obtain ⟨n, hn, hs⟩ := h.symm.get hi
    simp only [Node.shape, Prod.mk.injEq] at hs
    rw [← hs.2.2.2.1]; exact w.nodup i n hn
  · intro i n' hi
    obtain ⟨n, hn, hs⟩ := h.symm.get hi
    obtain ⟨ms, h1, h2⟩ := w.part i n hn
    have hs' := hs
    simp only [Node.shape, Prod.mk.injEq] at hs
    rw [h.childActions hs'.symm]
    refine ⟨ms, by rw [← hs.1]; exact h1, ?_⟩
    rw [← hs.2.2.2.2.2]
    exact h2


/-! ## Ancestors -/

/-- `st'` has the nodes of `st` with the same parents and positions, and maybe more nodes. -/
def SameUp (st st' : Store G Fl) : Prop :=
  ∀ (i : Nat) (n : Node G Fl), st[i]? = some n → ∃ n' : Node G Fl, st'[i]? = some n' ∧ n'.parent = n.parent ∧
    n'.state = n.state

theorem SameUp.trans {a b c : Store G Fl} (h : SameUp a b) (h' : SameUp b c) : SameUp a c := by
  intro i n hi
  obtain ⟨n1, h1, h2, h3⟩ := h i n hi
  obtain ⟨n2, h4, h5, h6⟩ := h' i n1 h1
  exact ⟨n2, h4, h5.trans h2, h6.trans h3⟩

theorem SameShape.up {st st' : Store G Fl} (h : SameShape st st') : SameUp st st' := by
  intro i n hi
  obtain ⟨n', h1, h2⟩ := h.get hi
  simp only [Node.shape, Prod.mk.injEq] at h2
  exact ⟨n', h1, h2.2.2.1, h2.1⟩

theorem Anc.mono {st st' : Store G Fl} (h : SameUp st st') {i k : Nat} (a : Anc st i k) : Anc st' i k := by
  induction a with
  | refl => exact .refl
  | step h1 h2 _ ih =>
    obtain ⟨n', h3, h4, -⟩ := h _ _ h1
    exact .step h3 (h4.trans h2) ih

/-- Parents come before their children. -/
def UpLt (st : Store G Fl) : Prop :=
  ∀ (i : Nat) (n : Node G Fl) (p : Nat), st[i]? = some n → n.parent = some p → p < i

theorem WellFormed.upLt {st : Store G Fl} (w : WellFormed st) : UpLt st := fun i n p h1 h2 => (w.up i n p h1 h2).1

theorem Anc.le {st : Store G Fl} (w : UpLt st) {i k : Nat} (a : Anc st i k) : i ≤ k := by
  induction a with
  | refl => exact Nat.le_refl _
  | step h1 h2 _ ih => exact Nat.le_of_lt (Nat.lt_of_le_of_lt ih (w _ _ _ h1 h2))

/-- Going to a larger store does not add ancestors to old nodes. -/
theorem Anc.of_up {st st' : Store G Fl} (w : UpLt st) (h : SameUp st st') {i k : Nat} (hk : k < st.length)
    (a : Anc st' i k) : Anc st i k := by
  induction a with
  | refl => exact .refl
  | @step k p n h1 h2 _ ih =>
    obtain ⟨m, hm⟩ : ∃ m, st[k]? = some m := ⟨_, List.getElem?_eq_getElem hk⟩
    obtain ⟨m', h3, h4, -⟩ := h k m hm
    rw [h1] at h3
    injection h3 with h3
    subst h3
    have hp := w k m p hm (h4 ▸ h2)
    exact .step hm (h4 ▸ h2) (ih (Nat.lt_trans hp hk))

theorem anc_iff {st st' : Store G Fl} (w : UpLt st) (h : SameUp st st') {i k : Nat} (hk : k < st.length) :
    Anc st' i k ↔ Anc st i k := ⟨Anc.of_up w h hk, Anc.mono h⟩

theorem Anc.trans {st : Store G Fl} {i j k : Nat} (a : Anc st i j) (b : Anc st j k) : Anc st i k := by
  induction b with
  | refl => exact a
  | step h1 h2 _ ih => exact .step h1 h2 ih

theorem anc_cases {st : Store G Fl} {i k : Nat} {n : Node G Fl} (hn : st[k]? = some n) :
    Anc st i k ↔ i = k ∨ ∃ p, n.parent = some p ∧ Anc st i p := by
  constructor
  · intro a
    cases a with
    | refl => exact .inl rfl
    | step h1 h2 h3 =>
      rw [hn] at h1
      injection h1 with h1
      subst h1
      exact .inr ⟨_, h2, h3⟩
  · rintro (h | ⟨p, h1, h2⟩)
    · subst h; exact .refl
    · exact .step hn h1 h2

/-! ## Backpropagation -/

theorem record_shape (r : Fl.F) (n : Node G Fl) : (n.record r).shape = n.shape := rfl

theorem set_record_shape {st : Store G Fl} {i : Nat} {n : Node G Fl} (r : Fl.F) (h : st[i]? = some n) :
    SameShape st (st.set i (n.record r)) := by
  unfold SameShape
  rw [List.map_set, record_shape]
  apply List.ext_getElem?
  intro j
  rw [List.getElem?_set]
  split
  · rename_i hj
    subst hj
    rw [List.getElem?_map, h]
    have := (List.getElem?_eq_some_iff.1 h).1
    simp [this]
  · rfl

open Classical in
/-- Backpropagation never fails on an existing node, and it updates exactly the nodes on the path to the root. -/
theorem backLoop_spec (r : Fl.F) (f k : Nat) (st : Store G Fl) (w : UpLt st) (hk : k < st.length) (hf : k < f) :
    ∃ st', backLoop r f k st = .ok st' ∧ SameShape st st' ∧
      ∀ (i : Nat) (n : Node G Fl), st[i]? = some n → st'[i]? = some (if Anc st i k then n.record r else n) := by
  induction f generalizing k st with
  | zero => omega
  | succ f ih =>
    obtain ⟨m, hm⟩ : ∃ m, st[k]? = some m := ⟨_, List.getElem?_eq_getElem hk⟩
    have hsh := set_record_shape r hm
    have hk' : (st.set k (m.record r))[k]? = some (m.record r) := by
      rw [List.getElem?_set_self hk]
    have hget : ∀ (i : Nat) (n : Node G Fl), st[i]? = some n →
        (st.set k (m.record r))[i]? = some (if i = k then n.record r else n) := by
      intro i n hi
      by_cases hik : i = k
      · subst hik
        rw [hm] at hi
        injection hi with hi
        subst hi
        rw [if_pos rfl]; exact hk'
      · rw [List.getElem?_set_ne (Ne.symm hik), if_neg hik]; exact hi
    have hstep : backLoop r (f + 1) k st = (match m.parent with
        | some p => backLoop r f p (st.set k (m.record r))
        | none => pure (st.set k (m.record r))) := by
      show (modifyNode st k (Node.record r) >>= fun st => getNode st k >>= fun n => _) = _
      unfold modifyNode
      rw [hm]
      show (getNode (st.set k (m.record r)) k >>= _) = _
      rw [getNode_ok.2 hk']
      rfl
    rw [hstep]
    cases hp : m.parent with
    | none =>
      refine ⟨_, rfl, hsh, ?_⟩
      intro i n hi
      rw [hget i n hi]
      congr 2
      apply propext
      rw [anc_cases hm, hp]
      simp
    | some p =>
      have hpk := w k m p hm hp
      have hw' : UpLt (st.set k (m.record r)) := by
        intro i n' q h1 h2
        obtain ⟨n, h3, h4, -⟩ := hsh.symm.up i n' h1
        exact w i n q h3 (h4.trans h2)
      obtain ⟨st', h1, h2, h3⟩ := ih p _ hw' (by simp; omega) (by omega)
      refine ⟨st', h1, hsh.trans h2, ?_⟩
      intro i n hi
      have := h3 i _ (hget i n hi)
      rw [this]
      have hanc : Anc (st.set k (m.record r)) i p ↔ Anc st i p := anc_iff w hsh.up (by omega)
      by_cases hik : i = k
      · subst hik
        have : ¬ Anc st i p := fun a => absurd (a.le w) (by omega)
        rw [if_pos rfl, if_neg ((not_congr hanc).2 this), if_pos Anc.refl]
      · rw [if_neg hik]
        congr 2
        apply propext
        rw [hanc, anc_cases hm, hp]
        simp [hik]

open Classical in
theorem backpropagate_spec (r : Fl.F) (k : Nat) (st : Store G Fl) (w : UpLt st) (hk : k < st.length) :
    ∃ st', backpropagate k r st = .ok st' ∧ SameShape st st' ∧
      ∀ (i : Nat) (n : Node G Fl), st[i]? = some n → st'[i]? = some (if Anc st i k then n.record r else n) :=
  backLoop_spec r st.length k st w hk hk


/-! ## Adding nodes -/

/-- `m` is a fresh child of node `i` (which is `n`) reached by `a`, stored at position `k`. -/
structure FreshChild (n : Node G Fl) (i k : Nat) (a : G.Mv) (m : Node G Fl) : Prop where
  idx : m.idx = k
  parent : m.parent = some i
  children : m.children = []
  action : m.action = some a
  moves : G.moves m.state = .ok m.expandable
  plays : Plays G n.state a m.state

theorem filterMap_congr' {α β : Type} {f g : α → Option β} {l : List α} (h : ∀ x ∈ l, f x = g x) :
    l.filterMap f = l.filterMap g := by
  induction l with
  | nil => rfl
  | cons a l ih =>
    rw [List.filterMap_cons, List.filterMap_cons, h a (List.mem_cons_self ..),
      ih fun x hx => h x (List.mem_cons_of_mem _ hx)]

theorem filterMap_range' {α : Type} (f : Nat → Option α) (as : List α) (s : Nat)
    (h : ∀ (j : Nat) (a : α), as[j]? = some a → f (s + j) = some a) : (List.range' s as.length).filterMap f = as := by
  induction as generalizing s with
  | nil => rfl
  | cons a as ih =>
    rw [List.length_cons, List.range'_succ]
    rw [List.filterMap_cons, show f s = some a from h 0 a rfl]
    simp only
    rw [ih (s + 1)]
    intro j b hb
    have := h (j + 1) b (by simpa using hb)
    rw [← this]
    congr 1
    omega

/-- Expanding some of the moves of a node keeps the forest well formed. -/
theorem wf_extend {st : Store G Fl} (w : WellFormed st) {i : Nat} {n n' : Node G Fl} (hi : st[i]? = some n)
    (news : List (Node G Fl)) (as es : List G.Mv) (hlen : news.length = as.length)
    (hnew : ∀ (j : Nat) (m : Node G Fl) (a : G.Mv), news[j]? = some m → as[j]? = some a →
      FreshChild n i (st.length + j) a m)
    (hexp : (es ++ as).Perm n.expandable)
    (hn' : n'.shape = (n.state, n.idx, n.parent, n.children ++ List.range' st.length as.length, n.action, es)) :
    WellFormed ((st ++ news).set i n') := by
  have hil : i < st.length := (List.getElem?_eq_some_iff.1 hi).1
  simp only [Node.shape, Prod.mk.injEq] at hn'
  obtain ⟨hs, hidx, hpar, hch, hact, hex⟩ := hn'
  -- lookups in the new store
  have hself : ((st ++ news).set i n')[i]? = some n' := by
    rw [List.getElem?_set_self]; simp; omega
  have hold : ∀ j, j ≠ i → j < st.length → ((st ++ news).set i n')[j]? = st[j]? := by
    intro j hj hjl
    rw [List.getElem?_set_ne (Ne.symm hj), List.getElem?_append_left hjl]
  have hfresh : ∀ j, ((st ++ news).set i n')[st.length + j]? = news[j]? := by
    intro j
    rw [List.getElem?_set_ne (by omega), List.getElem?_append_right (by omega)]
    congr 1
    omega
  have hact' : ∀ c, c < st.length → (((st ++ news).set i n')[c]?).bind Node.action = (st[c]?).bind Node.action := by
    intro c hc
    by_cases hci : c = i
    · subst hci
      rw [hself, hi]
      exact hact
    · rw [hold c hci hc]
  have hcases : ∀ (j : Nat) (m : Node G Fl), ((st ++ news).set i n')[j]? = some m →
      (j = i ∧ m = n') ∨ (j ≠ i ∧ j < st.length ∧ st[j]? = some m) ∨
      (∃ q a, j = st.length + q ∧ news[q]? = some m ∧ as[q]? = some a) := by
    intro j m hj
    by_cases hji : j = i
    · subst hji
      rw [hself] at hj
      injection hj with hj
      exact .inl ⟨rfl, hj.symm⟩
    · by_cases hjl : j < st.length
      · rw [hold j hji hjl] at hj
        exact .inr (.inl ⟨hji, hjl, hj⟩)
      · obtain ⟨q, rfl⟩ : ∃ q, j = st.length + q := ⟨j - st.length, by omega⟩
        rw [hfresh q] at hj
        have hq : q < as.length := by rw [← hlen]; exact (List.getElem?_eq_some_iff.1 hj).1
        exact .inr (.inr ⟨q, as[q], rfl, hj, List.getElem?_eq_getElem hq⟩)
  have hchlt : ∀ (j : Nat) (m : Node G Fl) (c : Nat), st[j]? = some m → c ∈ m.children → c < st.length := by
    intro j m c h1 h2
    obtain ⟨cn, h3, -⟩ := w.down j m c h1 h2
    exact (List.getElem?_eq_some_iff.1 h3).1
  have hca : ∀ (j : Nat) (m : Node G Fl), st[j]? = some m →
      m.children.filterMap (fun c => (((st ++ news).set i n')[c]?).bind fun x => x.action) = childActions st m := by
    intro j m hj
    unfold childActions
    apply filterMap_congr'
    intro c hc
    exact hact' c (hchlt j m c hj hc)
  constructor
  · intro j m hj
    rcases hcases j m hj with ⟨rfl, rfl⟩ | ⟨-, -, h⟩ | ⟨q, a, rfl, h1, h2⟩
    · rw [hidx]; exact w.idx _ _ hi
    · exact w.idx j m h
    · exact (hnew q m a h1 h2).idx
  · intro j m hj hp
    rcases hcases j m hj with ⟨rfl, rfl⟩ | ⟨-, -, h⟩ | ⟨q, a, rfl, h1, h2⟩
    · rw [hact]; exact w.root _ _ hi (hpar ▸ hp)
    · exact w.root j m h hp
    · rw [(hnew q m a h1 h2).parent] at hp; cases hp
  · -- upward
    have key : ∀ (j p : Nat) (pn : Node G Fl) (st0 : G.S) (a : G.Mv), st[p]? = some pn → j ∈ pn.children →
        Plays G pn.state a st0 → ∃ pn' : Node G Fl, ((st ++ news).set i n')[p]? = some pn' ∧ j ∈ pn'.children ∧
          Plays G pn'.state a st0 := by
      intro j p pn s0 a h1 h2 h3
      by_cases hpi : p = i
      · subst hpi
        rw [hi] at h1
        injection h1 with h1
        subst h1
        refine ⟨n', hself, ?_, ?_⟩
        · rw [hch]; exact List.mem_append_left _ h2
        · rw [hs]; exact h3
      · exact ⟨pn, by rw [hold p hpi (List.getElem?_eq_some_iff.1 h1).1]; exact h1, h2, h3⟩
    intro j m p hj hp
    rcases hcases j m hj with ⟨rfl, rfl⟩ | ⟨-, -, h⟩ | ⟨q, a, rfl, h1, h2⟩
    · obtain ⟨hlt, pn, a, h1, h2, h3, h4⟩ := w.up _ _ p hi (hpar ▸ hp)
      obtain ⟨pn', h5, h6, h7⟩ := key _ p pn _ a h1 h2 h4
      exact ⟨hlt, pn', a, h5, h6, hact.trans h3, by rw [hs]; exact h7⟩
    · obtain ⟨hlt, pn, a, h1, h2, h3, h4⟩ := w.up j m p h hp
      obtain ⟨pn', h5, h6, h7⟩ := key j p pn _ a h1 h2 h4
      exact ⟨hlt, pn', a, h5, h6, h3, h7⟩
    · have hf := hnew q m a h1 h2
      rw [hf.parent] at hp
      injection hp with hp
      subst hp
      refine ⟨by omega, n', a, hself, ?_, hf.action, ?_⟩
      · rw [hch, List.mem_append]
        right
        rw [List.mem_range'_1]
        have := (List.getElem?_eq_some_iff.1 h2).1
        omega
      · rw [hs]; exact hf.plays
  · -- downward
    have key : ∀ (c p : Nat) (cn : Node G Fl), st[c]? = some cn → cn.parent = some p →
        ∃ cn' : Node G Fl, ((st ++ news).set i n')[c]? = some cn' ∧ cn'.parent = some p := by
      intro c p cn h1 h2
      by_cases hci : c = i
      · subst hci
        rw [hi] at h1
        injection h1 with h1
        subst h1
        exact ⟨n', hself, hpar.trans h2⟩
      · exact ⟨cn, by rw [hold c hci (List.getElem?_eq_some_iff.1 h1).1]; exact h1, h2⟩
    intro j m c hj hc
    rcases hcases j m hj with ⟨rfl, rfl⟩ | ⟨-, -, h⟩ | ⟨q, a, rfl, h1, h2⟩
    · rw [hch, List.mem_append] at hc
      rcases hc with hc | hc
      · obtain ⟨cn, h1, h2⟩ := w.down _ _ c hi hc
        exact key c _ cn h1 h2
      · rw [List.mem_range'_1] at hc
        obtain ⟨q, rfl⟩ : ∃ q, c = st.length + q := ⟨c - st.length, by omega⟩
        have hq : q < as.length := by omega
        have hq' : q < news.length := by omega
        rw [hfresh q]
        exact ⟨news[q], List.getElem?_eq_getElem hq',
          (hnew q _ _ (List.getElem?_eq_getElem hq') (List.getElem?_eq_getElem hq)).parent⟩
    · obtain ⟨cn, h1, h2⟩ := w.down j m c h hc
      exact key c _ cn h1 h2
    · rw [(hnew q m a h1 h2).children] at hc; cases hc
  · intro j m hj
    rcases hcases j m hj with ⟨rfl, rfl⟩ | ⟨-, -, h⟩ | ⟨q, a, rfl, h1, h2⟩
    · rw [hch, List.nodup_append]
      refine ⟨w.nodup _ _ hi, List.nodup_range' .., ?_⟩
      intro a ha b hb
      have := hchlt _ _ a hi ha
      rw [List.mem_range'_1] at hb
      omega
    · exact w.nodup j m h
    · rw [(hnew q m a h1 h2).children]; exact List.nodup_nil
  · intro j m hj
    rcases hcases j m hj with ⟨rfl, rfl⟩ | ⟨-, -, h⟩ | ⟨q, a, rfl, h1, h2⟩
    · obtain ⟨ms, h1, h2⟩ := w.part _ _ hi
      refine ⟨ms, by rw [hs]; exact h1, ?_⟩
      unfold childActions
      rw [hch, List.filterMap_append, hca _ _ hi, hex,
        filterMap_range' _ as st.length (fun q a hq => by
          have hq' : q < news.length := by rw [hlen]; exact (List.getElem?_eq_some_iff.1 hq).1
          rw [hfresh q, List.getElem?_eq_getElem hq']
          exact (hnew q _ a (List.getElem?_eq_getElem hq') hq).action)]
      refine List.Perm.trans ?_ h2
      refine List.Perm.trans ?_ (List.Perm.append_right _ hexp)
      rw [List.append_assoc]
      refine List.Perm.append_left _ ?_
      exact List.perm_append_comm
    · obtain ⟨ms, h1, h2⟩ := w.part j m h
      refine ⟨ms, h1, ?_⟩
      unfold childActions
      rw [hca j m h]
      exact h2
    · refine ⟨_, (hnew q m a h1 h2).moves, ?_⟩
      unfold childActions
      rw [(hnew q m a h1 h2).children]
      simp

/-- Adding a root keeps the forest well formed. -/
theorem wf_root {st : Store G Fl} (w : WellFormed st) {s : G.S} {ms : List G.Mv} (hm : G.moves s = .ok ms) (pol : Fl.F) :
    WellFormed (st ++ [freshNode s st.length none none pol ms]) := by
  have hold : ∀ (j : Nat) (m : Node G Fl), st[j]? = some m →
      (st ++ [freshNode s st.length none none pol ms])[j]? = some m := by
    intro j m h
    rw [List.getElem?_append_left (List.getElem?_eq_some_iff.1 h).1]; exact h
  have hcases : ∀ (j : Nat) (m : Node G Fl), (st ++ [freshNode s st.length none none pol ms])[j]? = some m →
      st[j]? = some m ∨ (j = st.length ∧ m = freshNode s st.length none none pol ms) := by
    intro j m h
    by_cases hj : j < st.length
    · rw [List.getElem?_append_left hj] at h; exact .inl h
    · rw [List.getElem?_append_right (by omega)] at h
      have : j - st.length = 0 := by
        have := (List.getElem?_eq_some_iff.1 h).1
        simp at this
        omega
      rw [this] at h
      simp at h
      exact .inr ⟨by omega, h.symm⟩
  constructor
  · intro j m hj
    rcases hcases j m hj with h | ⟨rfl, rfl⟩
    · exact w.idx j m h
    · rfl
  · intro j m hj hp
    rcases hcases j m hj with h | ⟨rfl, rfl⟩
    · exact w.root j m h hp
    · rfl
  · intro j m p hj hp
    rcases hcases j m hj with h | ⟨rfl, rfl⟩
    · obtain ⟨h1, pn, a, h2, h3⟩ := w.up j m p h hp
      exact ⟨h1, pn, a, hold _ _ h2, h3⟩
    · cases hp
  · intro j m c hj hc
    rcases hcases j m hj with h | ⟨rfl, rfl⟩
    · obtain ⟨cn, h1, h2⟩ := w.down j m c h hc
      exact ⟨cn, hold _ _ h1, h2⟩
    · cases hc
  · intro j m hj
    rcases hcases j m hj with h | ⟨rfl, rfl⟩
    · exact w.nodup j m h
    · exact List.nodup_nil
  · intro j m hj
    rcases hcases j m hj with h | ⟨rfl, rfl⟩
    · obtain ⟨ms', h1, h2⟩ := w.part j m h
      refine ⟨ms', h1, ?_⟩
      have : childActions (st ++ [freshNode s st.length none none pol ms]) m = childActions st m := by
        unfold childActions
        apply filterMap_congr'
        intro c hc
        obtain ⟨cn, h3, -⟩ := w.down j m c h hc
        rw [hold c cn h3, h3]
      rw [this]; exact h2
    · exact ⟨ms, hm, by simp [freshNode, childActions]⟩

theorem wf_nil : WellFormed ([] : Store G Fl) := by
  constructor <;> intro i n <;> simp

/-! ## Expansion -/

theorem expand_ok {n : Node G Fl} {st st' : Store G Fl} {c : Nat} {t t' : Tape} (h : expand n st t = .ok ((st', c), t')) :
    ∃ a next ms, n.expandable = n.expandable.dropLast ++ [a] ∧ Plays G n.state a next ∧ G.moves next = .ok ms ∧
      c = st.length ∧ n.idx < (st ++ [freshNode (Fl := Fl) next st.length (some n.idx) (some a) (Fl.ofInt 0) ms]).length ∧
      st' = (st ++ [freshNode next st.length (some n.idx) (some a) (Fl.ofInt 0) ms]).set n.idx
        { n with expandable := n.expandable.dropLast, children := n.children ++ [st.length] } := by
  unfold expand at h
  cases hl : n.expandable.getLast? with
  | none => rw [hl] at h; exact absurd h (by simp [M.fail])
  | some a =>
    rw [hl] at h
    simp only at h
    obtain ⟨next, t1, h1, h⟩ := M.bind_ok.1 h
    obtain ⟨⟨st1, c1⟩, t2, h2, h⟩ := M.bind_ok.1 h
    rw [M.lift_ok] at h2
    obtain ⟨ms, hm, hc, hst⟩ := addNode_ok.1 h2.1
    simp only at h
    obtain ⟨st2, t3, h3, h⟩ := M.bind_ok.1 h
    rw [M.lift_ok] at h3
    have h3 := h3.1
    have h4 := M.pure_ok.1 h
    simp only [Prod.mk.injEq] at h4
    obtain ⟨⟨rfl, rfl⟩, -⟩ := h4
    subst hst hc
    unfold setNode at h3
    split at h3
    · rename_i hlt
      injection h3 with h3
      refine ⟨a, next, ms, ?_, ⟨_, _, h1⟩, hm, rfl, hlt, h3.symm⟩
      obtain ⟨l, hl⟩ := List.getLast?_eq_some_iff.1 hl
      rw [hl]
      simp
    · cases h3

theorem expand_wf {n : Node G Fl} {st st' : Store G Fl} {i c : Nat} {t t' : Tape} (w : WellFormed st)
    (hi : st[i]? = some n) (h : expand n st t = .ok ((st', c), t')) : WellFormed st' := by
  obtain ⟨a, next, ms, h1, h2, h3, -, -, rfl⟩ := expand_ok h
  have hidx : n.idx = i := w.idx i n hi
  rw [hidx]
  apply wf_extend w hi [freshNode next st.length (some i) (some a) (Fl.ofInt 0) ms] [a] n.expandable.dropLast rfl
  · intro j m b hj hb
    have hj0 : j = 0 := by
      have := (List.getElem?_eq_some_iff.1 hj).1
      simp at this
      omega
    subst hj0
    simp at hj hb
    subst hj hb
    exact ⟨rfl, rfl, rfl, rfl, h3, h2⟩
  · rw [← h1]
  · simp [Node.shape, List.range'_succ, hidx]

end Mcts
end DieE
