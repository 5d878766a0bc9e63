import Verif.Train.SelfPlayFacts

/-! # The batched self-play loop as a whole -/

namespace DieE.Train
open DieE.Mcts DieE.Props.A

variable {G : Game} {Fl : Floats}

theorem mapM_getNode {st : Store G Fl} (l : List Nat) (h : ∀ i ∈ l, i < st.length) :
    ∃ r, l.mapM (getNode st) = .ok r ∧ r.map some = l.map fun i => st[i]? := by
  induction l with
  | nil => exact ⟨[], rfl, rfl⟩
  | cons i l ih =>
    obtain ⟨r, h1, h2⟩ := ih fun j hj => h j (List.mem_cons_of_mem _ hj)
    have hi := h i (List.mem_cons_self ..)
    refine ⟨st[i] :: r, ?_, ?_⟩
    · rw [List.mapM_cons, h1]
      unfold getNode
      rw [List.getElem?_eq_getElem hi]
      rfl
    · rw [List.map_cons, List.map_cons, h2, List.getElem?_eq_getElem hi]

/-- What the search gives for the games of the pool, and the roots. -/
theorem search_roots {R : G.S → Prop} (hs : SafeNet G R) (hc : Coded G R) {net : Net Fl} (ha : net.alphaOk = true)
    {pool : List (Nat × G.S)} (hne : pool ≠ []) (hR : ∀ e ∈ pool, R e.2) {games : List Nat}
    (ho : games.Perm (List.range pool.length)) {iterations : Nat} (hi : iterations ≠ 0) (t : Tape) :
    ∃ (st : Store G Fl) (t' : Tape) (roots : List (Node G Fl)) (rows : List Row),
      alphaMctsParallel net games (pool.map Prod.snd) iterations ([] : Store G Fl) t = .ok (st, t') ∧
      (List.range pool.length).mapM (getNode st) = .ok roots ∧ getProbTensorParallel roots st = .ok rows ∧
      roots = getRootNodes st ∧ rows.length = pool.length ∧
      ∀ (j i : Nat) (s : G.S), pool[j]? = some (i, s) →
        ∃ row root ms, rows[j]? = some row ∧ getNode st j = .ok root ∧ RowOK s row root ms := by
  have ho' : games.Perm (List.range (pool.map Prod.snd).length) := by rwa [List.length_map]
  have hne' : pool.map Prod.snd ≠ [] := by simpa using hne
  have hR' : ∀ s ∈ pool.map Prod.snd, R s := by
    intro s h
    obtain ⟨e, he, rfl⟩ := List.mem_map.1 h
    exact hR e he
  obtain ⟨st, t', h1, -⟩ := alphaMctsParallel_progress (Fl := Fl) hs ha hne' hR' ho' iterations t
  have f := alphaMctsParallel_forest ho' h1
  have hlen : pool.length ≤ st.length := by have := f.len; rwa [List.length_map] at this
  have hroots : getRootNodes st = st.take pool.length := by
    rw [getRootNodes_take f, List.length_map]
  obtain ⟨rows, g1, g2, g3⟩ := C39_search hs hc ha hne' hR' ho' h1
  refine ⟨st, t', getRootNodes st, rows, h1, ?_, g1, rfl, by rw [g2, List.length_map], ?_⟩
  · obtain ⟨r, r1, r2⟩ := mapM_getNode (st := st) (List.range pool.length) fun i h => by
      have := List.mem_range.1 h
      omega
    rw [r1, hroots]
    congr 1
    have hrl : r.length = pool.length := by
      have := congrArg List.length r2
      simpa using this
    apply List.ext_getElem?
    intro j
    have hj := congrArg (fun l => l[j]?) r2
    simp only [List.getElem?_map] at hj
    rw [List.getElem?_take]
    by_cases hjl : j < pool.length
    · rw [if_pos hjl]
      rw [List.getElem?_range hjl, List.getElem?_eq_getElem (by omega : j < r.length)] at hj
      rw [List.getElem?_eq_getElem (by omega : j < r.length)]
      simpa using hj
    · rw [if_neg hjl, List.getElem?_eq_none (by omega)]
  · intro j i s hj
    have hjs : (pool.map Prod.snd)[j]? = some s := by rw [List.getElem?_map, hj]; rfl
    have hjl : j < pool.length := (List.getElem?_eq_some_iff.1 hj).1
    obtain ⟨n, ms, k1, k2, k3, k4, k5⟩ := alphaMctsParallel_visited ho' h1 j s hjs
    have hrl : j < rows.length := by rw [g2, List.length_map]; exact hjl
    obtain ⟨q1, q2, q3⟩ := g3 j s rows[j] ms hjs (List.getElem?_eq_getElem hrl) k3
    refine ⟨rows[j], n, ms, List.getElem?_eq_getElem hrl, ?_, k3, ?_, ?_, q3⟩
    · unfold getNode; rw [k1]
    · intro hnil
      by_contra hch
      obtain ⟨c, hcm⟩ := List.exists_mem_of_ne_nil _ hch
      obtain ⟨cn, hcn, -⟩ := f.wf.down j n c k1 hcm
      obtain ⟨a, ms', p1, p2, p3, -⟩ := child_legal f.wf k1 hcm hcn
      rw [k2, k3] at p2
      injection p2 with p2
      rw [← p2, hnil] at p3
      cases p3
    · intro hm
      refine ⟨?_, q2 hi hm⟩
      obtain ⟨c, hc1, -⟩ := k5 hi hm
      exact List.ne_nil_of_mem hc1

/-- What the search gives for the games of the pool. -/
theorem search_rows {R : G.S → Prop} (hs : SafeNet G R) (hc : Coded G R) {net : Net Fl} (ha : net.alphaOk = true)
    {pool : List (Nat × G.S)} (hne : pool ≠ []) (hR : ∀ e ∈ pool, R e.2) {games : List Nat}
    (ho : games.Perm (List.range pool.length)) {iterations : Nat} (hi : iterations ≠ 0) (t : Tape) :
    ∃ (st : Store G Fl) (t' : Tape) (roots : List (Node G Fl)) (rows : List Row),
      alphaMctsParallel net games (pool.map Prod.snd) iterations ([] : Store G Fl) t = .ok (st, t') ∧
      (List.range pool.length).mapM (getNode st) = .ok roots ∧ getProbTensorParallel roots st = .ok rows ∧
      ∀ (j i : Nat) (s : G.S), pool[j]? = some (i, s) →
        ∃ row root ms, rows[j]? = some row ∧ getNode st j = .ok root ∧ RowOK s row root ms := by
  obtain ⟨st, t', roots, rows, h1, h2, h3, -, -, h4⟩ := search_roots hs hc ha hne hR ho hi t
  exact ⟨st, t', roots, rows, h1, h2, h3, h4⟩

/-- One pass of the loop. -/
theorem selfRound_spec {R : G.S → Prop} (hs : SafeNet G R) (hc : Coded G R) {net : Net Fl} (ha : net.alphaOk = true)
    (cfg : SelfPlayConfig) (hpw : PwOK cfg.pw) (hi : cfg.iterations ≠ 0) {n : Nat} {init : Nat → G.S} {k : Nat}
    (hk : k ≤ cfg.limit) {pool : List (Nat × G.S)} (hne : pool ≠ []) {games : List Nat}
    (ho : games.Perm (List.range pool.length)) {logs : Nat → List (Turn G)} {D : List Nat} {sp : SelfPlay G}
    (hinv : Inv R cfg.pw n cfg.limit init logs D sp) (hnd : (pool.map Prod.fst).Nodup)
    (hact : ∀ e ∈ pool, Active R cfg.pw n init logs D k e.1 e.2) (t : Tape) :
    ∃ pool' sp' t' logs' D', selfRound net cfg games pool sp t = .ok ((pool', sp'), t') ∧
      Inv R cfg.pw n cfg.limit init logs' D' sp' ∧ (pool'.map Prod.fst).Nodup ∧
      (∀ e ∈ pool', Active R cfg.pw n init logs' D' (k + 1) e.1 e.2) ∧ (pool' ≠ [] → k < cfg.limit) ∧
      ∀ i, i ∈ D ∨ i ∈ pool.map Prod.fst → i ∈ D' ∨ i ∈ pool'.map Prod.fst := by
  obtain ⟨st, t1, roots, rows, h1, h2, h3, h4⟩ := search_rows hs hc ha hne (fun e he => (hact e he).ok) ho hi t
  have hinv0 : Inv R cfg.pw n cfg.limit init logs D { sp with remove := [] } :=
    ⟨hinv.mems, hinv.rounds, hinv.count, hinv.turns, hinv.all, hinv.opn, hinv.log, hinv.done, hinv.nodup⟩
  obtain ⟨pool', sp', t2, logs', E, g1, g2, g3, g4, g5, g6, g7⟩ :=
    playStates_spec hs hc cfg hpw hk pool 0 logs D { sp with remove := [] } t1 (by simpa using h4) hinv0 hnd hact
  have hrem : ∀ j, j ∈ sp'.remove ↔ j ∈ E := by
    intro j
    rw [g7 j]
    simp
  have hfresh : ∀ e ∈ pool', e.1 ∉ D := by
    intro e he
    have : e.1 ∈ pool.map Prod.fst := g3 ▸ List.mem_map_of_mem he
    obtain ⟨e0, he0, h0⟩ := List.mem_map.1 this
    rw [← h0]
    exact (hact e0 he0).fresh
  have hlt : ∀ e ∈ pool', e.1 < n := by
    intro e he
    have : e.1 ∈ pool.map Prod.fst := g3 ▸ List.mem_map_of_mem he
    obtain ⟨e0, he0, h0⟩ := List.mem_map.1 this
    rw [← h0]
    exact (hact e0 he0).lt
  have hstay : ∀ e ∈ pool'.filter (fun e => decide (e.1 ∉ sp'.remove)), e ∈ pool' ∧ e.1 ∉ D ++ E := by
    intro e he
    rw [List.mem_filter, decide_eq_true_eq] at he
    refine ⟨he.1, ?_⟩
    rw [List.mem_append, not_or]
    exact ⟨hfresh e he.1, fun h => he.2 ((hrem _).2 h)⟩
  refine ⟨pool'.filter (fun e => decide (e.1 ∉ sp'.remove)), sp', t2, logs', D ++ E, ?_, g2, ?_, ?_, ?_, ?_⟩
  · unfold selfRound
    refine (M.bind_eq h1).trans ?_
    refine (M.bind_eq (a := roots) (t' := t1) (by rw [h2]; rfl)).trans ?_
    refine (M.bind_eq (a := rows) (t' := t1) (by rw [h3]; rfl)).trans ?_
    exact (M.bind_eq g1).trans rfl
  · refine List.Nodup.sublist (List.Sublist.map _ List.filter_sublist) ?_
    rw [g3]; exact hnd
  · intro e he
    obtain ⟨he1, he2⟩ := hstay e he
    have hp := g6 e he1
    exact ⟨hlt e he1, hp.log, hp.len, (hp.undecided he2).1, hp.ok, he2⟩
  · intro hne'
    obtain ⟨e, he⟩ := List.exists_mem_of_ne_nil _ hne'
    obtain ⟨he1, he2⟩ := hstay e he
    exact ((g6 e he1).undecided he2).2
  · intro i h
    rcases h with h | h
    · exact .inl (List.mem_append_left _ h)
    · by_cases hE : i ∈ E
      · exact .inl (List.mem_append_right _ hE)
      · right
        rw [← g3] at h
        obtain ⟨e, he, rfl⟩ := List.mem_map.1 h
        refine List.mem_map_of_mem ?_
        rw [List.mem_filter, decide_eq_true_eq]
        exact ⟨he, fun h => hE ((hrem _).1 h)⟩

/-- The loop, from the start of pass `k`. -/
theorem selfLoop_spec {R : G.S → Prop} (hs : SafeNet G R) (hc : Coded G R) {net : Net Fl} (ha : net.alphaOk = true)
    (cfg : SelfPlayConfig) (hpw : PwOK cfg.pw) (hi : cfg.iterations ≠ 0) {o : Orders G} (ho : o.Valid) {n : Nat}
    {init : Nat → G.S} (f k : Nat) (hf : cfg.limit + 1 ≤ k + f) (pool : List (Nat × G.S)) (hk : pool ≠ [] → k ≤ cfg.limit)
    {logs : Nat → List (Turn G)} {D : List Nat} {sp : SelfPlay G} (hinv : Inv R cfg.pw n cfg.limit init logs D sp)
    (hnd : (pool.map Prod.fst).Nodup) (hact : ∀ e ∈ pool, Active R cfg.pw n init logs D k e.1 e.2)
    (hcov : ∀ i, i < n → i ∈ D ∨ i ∈ pool.map Prod.fst) (t : Tape) :
    ∃ sp' t' logs' D', selfLoop net cfg o f k pool sp t = .ok (sp', t') ∧ Inv R cfg.pw n cfg.limit init logs' D' sp' ∧
      ∀ i, i < n → i ∈ D' := by
  induction f generalizing k pool logs D sp t with
  | zero =>
    have hp : pool = [] := by
      by_contra h
      have := hk h
      omega
    subst hp
    refine ⟨sp, t, logs, D, rfl, hinv, ?_⟩
    intro i h
    simpa using hcov i h
  | succ f ih =>
    by_cases hp : pool = []
    · subst hp
      refine ⟨sp, t, logs, D, rfl, hinv, ?_⟩
      intro i h
      simpa using hcov i h
    · have hperm := ho.map k pool
      have hmem : ∀ e, e ∈ o.map k pool ↔ e ∈ pool := fun e => hperm.mem_iff
      have hkeys : ((o.map k pool).map Prod.fst).Perm (pool.map Prod.fst) := hperm.map _
      have hset : (o.set k pool.length).Perm (List.range (o.map k pool).length) := by
        rw [hperm.length_eq]; exact ho.set k pool.length
      obtain ⟨pool', sp', t1, logs', D', h1, h2, h3, h4, h5, h6⟩ :=
        selfRound_spec hs hc ha cfg hpw hi (hk hp) (pool := o.map k pool)
          (fun h => hp (List.Perm.eq_nil (h ▸ hperm).symm)) hset hinv (hkeys.nodup_iff.2 hnd)
          (fun e he => hact e ((hmem e).1 he)) t
      obtain ⟨sp2, t2, logs2, D2, g1, g2, g3⟩ := ih (k + 1) (by omega) pool' (fun h => h5 h) h2 h3 h4
        (fun i hin => h6 i ((hcov i hin).imp id fun h => (hkeys.mem_iff).2 h)) t1
      refine ⟨sp2, t2, logs2, D2, ?_, g2, g3⟩
      unfold selfLoop
      rw [if_neg (by simpa using hp)]
      exact (M.bind_eq h1).trans g1

/-- A game whose new positions satisfy `R`. -/
def Starts (G : Game) (R : G.S → Prop) : Prop := ∀ t, ∃ s t', start G t = .ok (s, t') ∧ R s

theorem startAll_spec {R : G.S → Prop} (h : Starts G R) (is : List Nat) (t : Tape) :
    ∃ pool t', startAll G is t = .ok (pool, t') ∧ pool.map Prod.fst = is ∧
      ∀ e ∈ pool, R e.2 ∧ ∃ t1 t2, start G t1 = .ok (e.2, t2) := by
  induction is generalizing t with
  | nil => exact ⟨[], t, rfl, rfl, by simp⟩
  | cons i is ih =>
    obtain ⟨s, t1, h1, h2⟩ := h t
    obtain ⟨pool, t2, g1, g2, g3⟩ := ih t1
    refine ⟨(i, s) :: pool, t2, ?_, by rw [List.map_cons, g2], ?_⟩
    · unfold startAll
      exact (M.bind_eq h1).trans ((M.bind_eq g1).trans rfl)
    · intro e he
      rcases List.mem_cons.1 he with rfl | he
      · exact ⟨h2, t, t1, h1⟩
      · exact g3 e he

/-- What a run of the batched self-play returns: every game is played from a new position, by the rules, and is stopped
by its result or by the round limit; the games finish in some order `D`, and for each the loop returns `emitted`. -/
theorem selfPlayRun_spec {R : G.S → Prop} (hs : SafeNet G R) (hc : Coded G R) (hst : Starts G R) {net : Net Fl}
    (ha : net.alphaOk = true) (cfg : SelfPlayConfig) (hpw : PwOK cfg.pw) (hi : cfg.iterations ≠ 0) {o : Orders G}
    (ho : o.Valid) (n f : Nat) (hf : cfg.limit + 1 ≤ f) (t : Tape) :
    ∃ (sp : SelfPlay G) (t' : Tape) (init : Nat → G.S) (D : List Nat),
      selfPlayRun net cfg o n f t = .ok (sp, t') ∧ D.Perm (List.range n) ∧
      sp.all = D.flatMap (fun i => emitted cfg.limit (sp.turns i)) ∧ sp.mems.length = n ∧
      ∀ i, i < n → (∃ t1 t2, start G t1 = .ok (init i, t2)) ∧ (∃ s, Log G cfg.pw (init i) (sp.turns i) s) ∧
        Open (sp.turns i) ∧ Ended cfg.limit (sp.turns i) ∧ sp.mems[i]? = some (frags id (sp.turns i)) := by
  obtain ⟨pool, t1, h1, h2, h3⟩ := startAll_spec hst (List.range n) t
  have hpl : pool.length = n := by
    have := congrArg List.length h2
    simpa using this
  obtain ⟨s0, t0, -, -⟩ := hst t
  let init : Nat → G.S := fun i => ((pool[i]?).map Prod.snd).getD s0
  have hinit : ∀ (i : Nat) (e : Nat × G.S), pool[i]? = some e → e.1 = i ∧ init i = e.2 := by
    intro i e he
    constructor
    · have hil : i < n := by rw [← hpl]; exact (List.getElem?_eq_some_iff.1 he).1
      have := congrArg (fun l => l[i]?) h2
      simp only [List.getElem?_map, he, List.getElem?_range hil, Option.map_some, Option.some.injEq] at this
      exact this
    · show ((pool[i]?).map Prod.snd).getD s0 = e.2
      rw [he]; rfl
  have hinv : Inv R cfg.pw n cfg.limit init (fun _ => []) []
      { mems := List.replicate n [], rounds := List.replicate n 0, all := [], remove := [], turns := fun _ => [] } := by
    refine ⟨?_, ?_, List.length_replicate, rfl, rfl, ?_, ?_, by simp, List.nodup_nil⟩
    · intro i hi
      simp [hi, frags]
    · intro i hi
      simp [hi]
    · intro i _ k hk
      simp at hk
    · intro i _
      exact ⟨_, .nil⟩
  have hact : ∀ e ∈ pool, Active R cfg.pw n init (fun _ => []) [] 0 e.1 e.2 := by
    intro e he
    obtain ⟨i, hi⟩ := List.getElem?_of_mem he
    obtain ⟨e1, e2⟩ := hinit i e hi
    have hil : i < n := by rw [← hpl]; exact (List.getElem?_eq_some_iff.1 hi).1
    refine ⟨by omega, ?_, rfl, rfl, (h3 e he).1, by simp⟩
    rw [e1, ← e2]
    exact .nil
  obtain ⟨sp', t2, logs, D, g1, g2, g3⟩ := selfLoop_spec hs hc ha cfg hpw hi ho f 0 (by omega) pool (fun _ => Nat.zero_le _)
    hinv (h2 ▸ List.nodup_range) hact (fun i hi => .inr (h2 ▸ List.mem_range.2 hi)) t1
  have ht := g2.turns
  subst ht
  refine ⟨sp', t2, init, D, ?_, ?_, g2.all, g2.count, ?_⟩
  · unfold selfPlayRun
    exact (M.bind_eq h1).trans g1
  · refine (List.perm_ext_iff_of_nodup g2.nodup List.nodup_range).2 fun i => ?_
    rw [List.mem_range]
    exact ⟨fun h => (g2.done i h).1, g3 i⟩
  · intro i hi
    have hil : i < pool.length := by omega
    have he := List.getElem?_eq_getElem hil
    refine ⟨?_, g2.log i hi, g2.opn i hi, (g2.done i (g3 i hi)).2, g2.mems i hi⟩
    rw [(hinit i _ he).2]
    exact (h3 _ (List.getElem_mem hil)).2

end DieE.Train
