import Verif.Train.DataSpec
import Verif.TensorFacts
import Mathlib.Data.List.Forall2
import Mathlib.Data.List.Nodup

/-! # Facts about training data -/

namespace DieE.Train
open DieE.Mcts

/-! ## Batches -/

theorem steps_slices {α : Type} (pf : Profile) {b : Nat} (hb : b ≠ 0) (hb' : b < 2 ^ 64) {l : List α}
    (hl : l.length < 2 ^ 63) (f i : Nat) (hf : l.length ≤ f + i) (hi : i = 0 ∨ b ≤ i) :
    ∃ bs, (steps b l.length f i).mapM (fun i => do
        let e ← usizeAdd pf i b
        slice l i (min e l.length)) = .ok bs ∧ bs.flatten = l.drop i ∧
      (∀ s ∈ bs, 0 < s.length ∧ s.length ≤ b) ∧ ∀ s ∈ bs.dropLast, s.length = b := by
  induction f generalizing i with
  | zero =>
    refine ⟨[], rfl, ?_, by simp, by simp⟩
    rw [List.drop_eq_nil_of_le (by omega)]
    rfl
  | succ f ih =>
    unfold steps
    by_cases hin : i < l.length
    · rw [if_pos hin]
      obtain ⟨bs, h1, h2, h3, h4⟩ := ih (i + b) (by omega) (.inr (by omega))
      have hadd : usizeAdd pf i b = .ok (i + b) := by
        unfold usizeAdd
        rw [if_pos (by omega)]
      have hsl : slice l i (min (i + b) l.length) = .ok ((l.take (min (i + b) l.length)).drop i) := by
        unfold slice
        rw [if_pos ⟨by omega, by omega⟩]
      have hlen : ((l.take (min (i + b) l.length)).drop i).length = min b (l.length - i) := by
        rw [List.length_drop, List.length_take]
        omega
      refine ⟨(l.take (min (i + b) l.length)).drop i :: bs, ?_, ?_, ?_, ?_⟩
      · rw [List.mapM_cons, h1, hadd]
        show (slice l i (min (i + b) l.length) >>= fun x => _) = _
        rw [hsl]
        rfl
      · rw [List.flatten_cons, h2]
        by_cases hle : i + b ≤ l.length
        · rw [min_eq_left hle]
          conv_rhs => rw [← List.take_append_drop (i + b) l, List.drop_append_of_le_length (by rw [List.length_take]; omega)]
        · rw [min_eq_right (by omega), List.take_length, List.drop_eq_nil_of_le (by omega : l.length ≤ i + b),
            List.append_nil]
      · intro s hs
        rcases List.mem_cons.1 hs with rfl | hs
        · rw [hlen]
          omega
        · exact h3 s hs
      · intro s hs
        cases bs with
        | nil => simp at hs
        | cons s' bs =>
          rw [List.dropLast_cons_of_ne_nil (by simp)] at hs
          rcases List.mem_cons.1 hs with rfl | hs
          · rw [hlen]
            have hpos := (h3 s' (List.mem_cons_self ..)).1
            have hlen2 := congrArg List.length h2
            rw [List.flatten_cons, List.length_append, List.length_drop] at hlen2
            omega
          · exact h4 s hs
    · rw [if_neg hin]
      refine ⟨[], rfl, ?_, by simp, by simp⟩
      rw [List.drop_eq_nil_of_le (by omega)]
      rfl

/-- The loop of `train` presents a partition of the list. -/
theorem batches_spec {α : Type} (pf : Profile) {b : Nat} (hb : b ≠ 0) (hb' : b < 2 ^ 64) {l : List α}
    (hl : l.length < 2 ^ 63) :
    ∃ bs, batches pf b l = .ok bs ∧ bs.flatten = l ∧
      (∀ s ∈ bs, 0 < s.length ∧ s.length ≤ b) ∧ ∀ s ∈ bs.dropLast, s.length = b := by
  obtain ⟨bs, h1, h2, h3⟩ := steps_slices pf hb hb' hl l.length 0 (by omega) (.inl rfl)
  refine ⟨bs, ?_, h2, h3⟩
  unfold batches
  rw [show assert (decide (b ≠ 0)) = .ok () by unfold assert; rw [if_pos (decide_eq_true hb)]]
  exact h1

/-- The tensors of a sample. -/
theorem batchTensors_spec {N : Nat} {sh : List Nat} (hsh : sh ≠ []) {sample : List Mem} (hne : sample ≠ [])
    (hp : ∀ m ∈ sample, m.ps.shape = [N])
    (hs : (∀ m ∈ sample, m.state.shape = 1 :: sh) ∨ ((∀ m ∈ sample, m.state.shape = sh) ∧ sh.head? ≠ some 1)) :
    ∃ x, batchTensors sample = .ok x ∧ Holds N sh sample x := by
  have hmap : ∀ {β : Type} (f : Mem → Tensor β), sample.map f ≠ [] := fun f => by simpa using hne
  obtain ⟨p, hp1, hp2, hp3⟩ := Tensor.stack_ok (ts := sample.map Mem.ps) (sh := [N]) (hmap _) (by
    intro t ht
    obtain ⟨m, hm, rfl⟩ := List.mem_map.1 ht
    exact hp m hm)
  have key : ∃ s s' : Tensor Int, Tensor.stack (sample.map Mem.state) 0 = .ok s ∧ s.squeezeDim1 = .ok s' ∧
      s'.shape = sample.length :: sh ∧ ∀ j m, sample[j]? = some m → ∀ idx, Tensor.InShape sh idx →
        s'.at' (j :: idx) = m.state.at' (if m.state.shape = 1 :: sh then 0 :: idx else idx) := by
    rcases hs with hs | ⟨hs, h1⟩
    · obtain ⟨s, hs1, hs2, hs3⟩ := Tensor.stack_ok (ts := sample.map Mem.state) (sh := 1 :: sh) (hmap _) (by
        intro t ht
        obtain ⟨m, hm, rfl⟩ := List.mem_map.1 ht
        exact hs m hm)
      refine ⟨s, ⟨sample.length :: sh, fun idx => s.at' (idx.headD 0 :: 0 :: idx.tail)⟩, hs1, ?_, rfl, ?_⟩
      · unfold Tensor.squeezeDim1
        rw [hs2, List.length_map]
        exact if_pos rfl
      · intro j m hm idx _
        rw [if_pos (hs m (List.mem_of_getElem? hm))]
        exact hs3 j m.state (by rw [List.getElem?_map, hm]; rfl) (0 :: idx)
    · obtain ⟨s, hs1, hs2, hs3⟩ := Tensor.stack_ok (ts := sample.map Mem.state) (sh := sh) (hmap _) (by
        intro t ht
        obtain ⟨m, hm, rfl⟩ := List.mem_map.1 ht
        exact hs m hm)
      cases sh with
      | nil => exact absurd rfl hsh
      | cons n sh =>
        have hn : n ≠ 1 := fun e => h1 (by rw [e]; rfl)
        refine ⟨s, s, hs1, ?_, by rw [hs2, List.length_map], ?_⟩
        · unfold Tensor.squeezeDim1
          rw [hs2]
          exact if_neg hn
        · intro j m hm idx _
          have hm' := hs m (List.mem_of_getElem? hm)
          rw [if_neg (by rw [hm']; intro e; exact hn (List.cons.inj e).1)]
          exact hs3 j m.state (by rw [List.getElem?_map, hm]; rfl) idx
  obtain ⟨s, s', hs1, hs2, hs3, hs4⟩ := key
  refine ⟨(⟨[(sample.map Mem.outcome).length] ++ [1], fun idx => (Tensor.fromSlice (sample.map Mem.outcome)).at' (idx.take 1)⟩, p, s'),
    ?_, ?_, ?_, ?_, ?_, ?_, ?_⟩
  · unfold batchTensors
    rw [hp1, hs1]
    simp only [bind, Except.bind]
    rw [hs2]
    rfl
  · rw [List.length_map]
    rfl
  · show p.shape = _
    rw [hp2, List.length_map]
  · exact hs3
  · intro j m hm
    show (sample.map Mem.outcome).getD j default = _
    rw [List.getD_eq_getElem?_getD, List.getElem?_map, hm]
    rfl
  · intro j m hm c _
    exact hp3 j m.ps (by rw [List.getElem?_map, hm]; rfl) [c]
  · exact hs4

/-! ## Files -/

theorem lookup_append (t : Tree) (p q : List Name) : t.lookup (p ++ q) = (t.lookup p).bind (Tree.lookup q) := by
  induction p generalizing t with
  | nil => rfl
  | cons n p ih =>
    cases t with
    | file c => rfl
    | dir es =>
      simp only [List.cons_append, Tree.lookup]
      cases es.find? (fun e => e.1 = n) with
      | none => rfl
      | some e => exact ih e.2

theorem load_lookup {root t : Tree} {p : List Name} (h : root.lookup p = some t) :
    loadTrainingData root p = loadTrainingData t [] := by
  unfold loadTrainingData
  rw [lookup_append, lookup_append, lookup_append, h]
  rfl

/-- The saved directory. -/
theorem save_spec {N : Nat} {sh : List Nat} {data : List Mem} (hne : data ≠ []) (hd : ∀ m ∈ data, m.Shaped N sh) :
    ∃ ps states, saveTrainingData data = .ok (.dir [(psName, .file (.floats ps)), (statesName, .file (.ints states)),
        (outcomesName, .file (.ints (Tensor.fromSlice (data.map Mem.outcome))))]) ∧
      ps.shape = [data.length, N] ∧ states.shape = data.length :: sh ∧
      (∀ j m, data[j]? = some m → ∀ idx, ps.at' (j :: idx) = m.ps.at' idx) ∧
      ∀ j m, data[j]? = some m → ∀ idx, states.at' (j :: idx) = m.state.at' (0 :: idx) := by
  have hmap : ∀ {β : Type} (f : Mem → Tensor β), data.map f ≠ [] := fun f => by simpa using hne
  obtain ⟨p, hp1, hp2, hp3⟩ := Tensor.stack_ok (ts := data.map Mem.ps) (sh := [N]) (hmap _) (by
    intro t ht
    obtain ⟨m, hm, rfl⟩ := List.mem_map.1 ht
    exact (hd m hm).1)
  obtain ⟨s, hs1, hs2, hs3⟩ := Tensor.cat_ok (ts := data.map Mem.state) (sh := sh) (hmap _) (by
    intro t ht
    obtain ⟨m, hm, rfl⟩ := List.mem_map.1 ht
    exact (hd m hm).2)
  refine ⟨p, s, ?_, by rw [hp2, List.length_map], by rw [hs2, List.length_map], ?_, ?_⟩
  · unfold saveTrainingData
    rw [hp1, hs1]
    rfl
  · intro j m hm idx
    exact hp3 j m.ps (by rw [List.getElem?_map, hm]; rfl) idx
  · intro j m hm idx
    exact hs3 j m.state (by rw [List.getElem?_map, hm]; rfl) idx

theorem mapM_range {β : Type} (n : Nat) (f : Nat → Res β) (g : Nat → β) (h : ∀ i, i < n → f i = .ok (g i)) :
    (List.range n).mapM f = .ok ((List.range n).map g) := by
  have : ∀ l : List Nat, (∀ i ∈ l, i < n) → l.mapM f = .ok (l.map g) := by
    intro l
    induction l with
    | nil => intro _; rfl
    | cons i l ih =>
      intro hl
      rw [List.mapM_cons, h i (hl i (List.mem_cons_self ..)), ih fun j hj => hl j (List.mem_cons_of_mem _ hj)]
      rfl
  exact this _ fun i hi => List.mem_range.1 hi

/-- Loading what was saved, if no dimension has size one. -/
theorem load_spec {N : Nat} {sh : List Nat} {data : List Mem} (hlen : 2 ≤ data.length) (hN : N ≠ 1)
    (hsh : ∀ n ∈ sh, n ≠ 1) (hd : ∀ m ∈ data, m.Shaped N sh) :
    ∃ t l, saveTrainingData data = .ok t ∧ loadTrainingData t [] = .ok l ∧ List.Forall₂ Mem.Kept data l := by
  obtain ⟨ps, states, h1, h2, h3, h4, h5⟩ := save_spec (by intro e; rw [e] at hlen; simp at hlen) hd
  have hps := Tensor.squeeze_same (t := ps) (by
    intro n hn
    rw [h2] at hn
    simp only [List.mem_cons, List.not_mem_nil, or_false] at hn
    rcases hn with rfl | rfl
    · omega
    · exact hN)
  have hst := Tensor.squeeze_same (t := states) (by
    intro n hn
    rw [h3] at hn
    rcases List.mem_cons.1 hn with rfl | hn
    · omega
    · exact hsh n hn)
  have hos := Tensor.squeeze_same (t := Tensor.fromSlice (data.map Mem.outcome)) (by
    intro n hn
    have hn' : n ∈ [(data.map Mem.outcome).length] := hn
    rw [List.length_map] at hn'
    simp only [List.mem_cons, List.not_mem_nil, or_false] at hn'
    omega)
  let g : Nat → Mem := fun i =>
    { outcome := (Tensor.fromSlice (data.map Mem.outcome)).squeeze.at' [i]
      ps := (⟨[N], fun idx => ps.squeeze.at' (i :: idx)⟩ : Tensor Mcts.Val).squeeze
      state := ⟨sh, fun idx => states.squeeze.at' (i :: idx)⟩ }
  refine ⟨_, (List.range data.length).map g, h1, ?_, ?_⟩
  · unfold loadTrainingData
    show (do
      let size ← index ps.squeeze.shape 0
      (List.range size).mapM fun i => do
        let o ← (Tensor.fromSlice (data.map Mem.outcome)).squeeze.get i
        let v ← o.value []
        let q ← ps.squeeze.get i
        let s ← states.squeeze.get i
        pure { outcome := v, ps := q.squeeze, state := s : Mem }) = _
    rw [hps.1, h2]
    refine mapM_range data.length _ g fun i hi => ?_
    rw [Tensor.get_ok (n := data.length) (sh := []) (hos.1.trans (by show [_] = _; rw [List.length_map])) hi,
      Tensor.get_ok (n := data.length) (sh := [N]) (hps.1.trans h2) hi,
      Tensor.get_ok (n := data.length) (sh := sh) (hst.1.trans h3) hi]
    rfl
  · rw [List.forall₂_iff_get]
    refine ⟨by simp, fun i h₁ h₂ => ?_⟩
    have hi : data[i]? = some data[i] := List.getElem?_eq_getElem h₁
    have hm := hd _ (List.getElem_mem h₁)
    rw [List.get_eq_getElem, List.get_eq_getElem, List.getElem_map, List.getElem_range]
    have hq := Tensor.squeeze_same (t := (⟨[N], fun idx => ps.squeeze.at' (i :: idx)⟩ : Tensor Mcts.Val)) (by
      intro n hn
      have : n = N := by simpa using hn
      exact this ▸ hN)
    refine ⟨?_, ?_, ?_, ?_⟩
    · show (Tensor.fromSlice (data.map Mem.outcome)).squeeze.at' [i] = _
      rw [hos.2 [i] (by rw [hos.1]; exact ⟨by show i < (data.map _).length; rw [List.length_map]; exact h₁, trivial⟩)]
      show (data.map Mem.outcome).getD i default = _
      rw [List.getD_eq_getElem?_getD, List.getElem?_map, hi]
      rfl
    · refine hq.trans ⟨hm.1.symm, fun idx hidx => ?_⟩
      show ps.squeeze.at' (i :: idx) = _
      rw [hps.2 (i :: idx) (by rw [hps.1, h2]; exact ⟨h₁, hidx⟩)]
      exact h4 i _ hi idx
    · show sh = _
      rw [hm.2]
      rfl
    · intro idx hidx
      show states.squeeze.at' (i :: idx) = _
      rw [hst.2 (i :: idx) (by rw [hst.1, h3]; exact ⟨h₁, hidx⟩)]
      exact h5 i _ hi idx

/-- A single fragment cannot be loaded. -/
theorem load_single {N : Nat} {sh : List Nat} {m : Mem} (hN : 2 ≤ N) (hm : m.Shaped N sh) :
    ∃ t, saveTrainingData [m] = .ok t ∧ loadTrainingData t [] = .error .tensorError := by
  obtain ⟨ps, states, h1, h2, _⟩ := save_spec (N := N) (sh := sh) (data := [m]) (by simp) (by
    intro m' hm'
    rw [List.mem_singleton.1 hm']
    exact hm)
  refine ⟨_, h1, ?_⟩
  unfold loadTrainingData
  show (do
    let size ← index ps.squeeze.shape 0
    (List.range size).mapM fun i => do
      let o ← (Tensor.fromSlice [m.outcome]).squeeze.get i
      let v ← o.value []
      let q ← ps.squeeze.get i
      let s ← states.squeeze.get i
      pure { outcome := v, ps := q.squeeze, state := s : Mem }) = _
  have hs : ps.squeeze.shape = [N] := by
    show ps.shape.filter (· ≠ 1) = _
    rw [h2]
    show List.filter (· ≠ 1) [1, N] = [N]
    rw [List.filter_cons_of_neg (by simp), List.filter_cons_of_pos (by simp; omega)]
    rfl
  rw [hs]
  obtain ⟨k, rfl⟩ : ∃ k, N = k + 1 := ⟨N - 1, by omega⟩
  show (List.range (k + 1)).mapM _ = _
  rw [List.range_succ_eq_map, List.mapM_cons]
  rfl

/-! ## Directories -/

theorem digits_inj {i j : Nat} (h : digits i = digits j) : i = j := by
  have h' := congrArg (Nat.ofDigitChars 10 · 0) h
  simpa [digits, Nat.ofDigitChars_toDigits] using h'

theorem spName_inj {i j : Nat} (h : spName i = spName j) : i = j := digits_inj (List.append_cancel_left h)

theorem lrnName_inj {i j : Nat} (h : lrnName i = lrnName j) : i = j := digits_inj (List.append_cancel_left h)

theorem containsSp_spName (i : Nat) : containsSp (spName i) = true :=
  decide_eq_true ⟨[], ['-'] ++ digits i, by simp [spName]⟩

theorem not_containsSp_of {n : Name} (h : 's' ∉ n) : containsSp n = false := by
  refine decide_eq_false fun hi => h ?_
  exact hi.subset (List.mem_cons_self ..)

theorem s_notMem_digits (i : Nat) : 's' ∉ digits i := fun h => by
  have := Nat.isDigit_of_mem_toDigits (b := 10) (by omega) (by omega) h
  exact absurd this (by decide)

theorem containsSp_lrnName (i : Nat) : containsSp (lrnName i) = false := by
  refine not_containsSp_of fun h => ?_
  rcases List.mem_append.1 h with h | h
  · exact absurd h (by decide)
  · exact s_notMem_digits i h

theorem containsSp_runName (id : Name) : containsSp (runName id) = containsSp id := by
  unfold containsSp
  rw [decide_eq_decide]
  constructor
  · intro h
    unfold runName at h
    simp only [List.cons_append, List.nil_append] at h
    have key : ∀ (c : Char) (l : Name), c ≠ 's' → ['s', 'p'] <:+: c :: l → ['s', 'p'] <:+: l := by
      intro c l hc hl
      rcases List.infix_cons_iff.1 hl with hl | hl
      · rw [List.cons_prefix_cons] at hl
        exact absurd hl.1.symm hc
      · exact hl
    exact key _ _ (by decide) (key _ _ (by decide) (key _ _ (by decide) (key _ _ (by decide) h)))
  · intro h
    exact h.trans (List.suffix_append _ _).isInfix

theorem find_entry {es : List (Name × Tree)} (hn : (es.map Prod.fst).Nodup) {e : Name × Tree} (he : e ∈ es) :
    es.find? (fun x => x.1 = e.1) = some e := by
  induction es with
  | nil => simp at he
  | cons x es ih =>
    rw [List.map_cons, List.nodup_cons] at hn
    rcases List.mem_cons.1 he with rfl | he
    · rw [List.find?_cons_of_pos (by simp)]
    · rw [List.find?_cons_of_neg]
      · exact ih hn.2 he
      · simp only [decide_eq_true_eq]
        intro heq
        exact hn.1 (heq ▸ List.mem_map_of_mem he)

theorem lookup_entry {root : Tree} {p : List Name} {es : List (Name × Tree)} (h : root.lookup p = some (.dir es))
    (hn : (es.map Prod.fst).Nodup) {e : Name × Tree} (he : e ∈ es) : root.lookup (p ++ [e.1]) = some e.2 := by
  rw [lookup_append, h]
  show Tree.lookup [e.1] (.dir es) = _
  unfold Tree.lookup
  rw [find_entry hn he]
  rfl

/-- Training on the directory loads the lists `D`, one for each directory of a self-play iteration. -/
def Yields (t : Tree) (D : List (List Mem)) : Prop :=
  ∀ root p, root.lookup p = some t →
    ∃ ls, (allPaths p t).mapM (loadTrainingData root) = .ok ls ∧ List.Forall₂ (List.Forall₂ Mem.Kept) D ls

theorem mapM_append_ok {α β : Type} {f : α → Res β} {l l' : List α} {r r' : List β} (h : l.mapM f = .ok r)
    (h' : l'.mapM f = .ok r') : (l ++ l').mapM f = .ok (r ++ r') := by
  rw [List.mapM_append, h]
  simp only [bind, Except.bind]
  rw [h']
  rfl

theorem forall₂_append {α β : Type} {R : α → β → Prop} {a b : List α} {c d : List β} (h : List.Forall₂ R a c)
    (h' : List.Forall₂ R b d) : List.Forall₂ R (a ++ b) (c ++ d) := List.rel_append h h'

/-- A directory of directories. -/
theorem yields_dir {es : List (Name × Tree)} {Ds : List (List (List Mem))} (hn : (es.map Prod.fst).Nodup)
    (hsp : ∀ e ∈ es, containsSp e.1 = false) (h : List.Forall₂ (fun e D => Yields e.2 D) es Ds) :
    Yields (.dir es) Ds.flatten := by
  intro root p hp
  have hl : ∀ e ∈ es, root.lookup (p ++ [e.1]) = some e.2 := fun e he => lookup_entry hp hn he
  show ∃ ls, (allPathsIn p es).mapM _ = _ ∧ _
  clear hp hn
  induction h with
  | nil => exact ⟨[], rfl, .nil⟩
  | @cons e D es Ds he _ ih =>
    obtain ⟨n, t⟩ := e
    obtain ⟨ls, h1, h2⟩ := ih (fun e he => hsp e (List.mem_cons_of_mem _ he)) fun e he => hl e (List.mem_cons_of_mem _ he)
    obtain ⟨ls', h1', h2'⟩ := he root (p ++ [n]) (hl _ (List.mem_cons_self ..))
    refine ⟨ls' ++ ls, ?_, forall₂_append h2' h2⟩
    simp only [allPathsIn]
    have hc : containsSp n = false := hsp (n, t) (List.mem_cons_self ..)
    rw [hc]
    exact mapM_append_ok h1' h1

/-- A directory of saved data. -/
theorem yields_sp {N : Nat} {sh : List Nat} (hN : N ≠ 1) (hsh : ∀ n ∈ sh, n ≠ 1) {es : List (Name × Tree)}
    {Ds : List (List Mem)} (hn : (es.map Prod.fst).Nodup) (hsp : ∀ e ∈ es, containsSp e.1 = true)
    (h : List.Forall₂ (fun e D => saveTrainingData D = .ok e.2 ∧ 2 ≤ D.length ∧ ∀ m ∈ D, m.Shaped N sh) es Ds) :
    Yields (.dir es) Ds := by
  intro root p hp
  have hl : ∀ e ∈ es, root.lookup (p ++ [e.1]) = some e.2 := fun e he => lookup_entry hp hn he
  show ∃ ls, (allPathsIn p es).mapM _ = _ ∧ _
  clear hp hn
  induction h with
  | nil => exact ⟨[], rfl, .nil⟩
  | @cons e D es Ds he _ ih =>
    obtain ⟨n, t⟩ := e
    obtain ⟨ls, h1, h2⟩ := ih (fun e he => hsp e (List.mem_cons_of_mem _ he)) fun e he => hl e (List.mem_cons_of_mem _ he)
    obtain ⟨t', l, h3, h4, h5⟩ := load_spec he.2.1 hN hsh he.2.2
    have ht : t' = t := by
      have := he.1
      rw [h3] at this
      exact Except.ok.inj this
    subst ht
    refine ⟨[l] ++ ls, ?_, .cons h5 h2⟩
    simp only [allPathsIn]
    have hc : containsSp n = true := hsp (n, t') (List.mem_cons_self ..)
    rw [hc]
    refine mapM_append_ok (r := [l]) ?_ h1
    show [p ++ [n]].mapM _ = _
    rw [List.mapM_cons, load_lookup (hl (n, t') (List.mem_cons_self ..)), h4]
    rfl

/-- Recursive form of `prefixes`. -/
def cumul (memory : List Mem) : List (List Mem) → List (List Mem)
  | [] => []
  | r :: res => (memory ++ r) :: cumul (memory ++ r) res

theorem cumul_eq (memory : List Mem) (res : List (List Mem)) :
    cumul memory res = (List.range res.length).map fun k => memory ++ (res.take (k + 1)).flatten := by
  induction res generalizing memory with
  | nil => rfl
  | cons r res ih =>
    rw [cumul, ih, List.length_cons, List.range_succ_eq_map, List.map_cons, List.map_map]
    congr 1
    · simp
    · refine List.map_congr_left fun k _ => ?_
      simp

theorem prefixes_eq (res : List (List Mem)) : prefixes res = cumul [] res := by
  rw [cumul_eq]
  rfl

theorem selfPlayDirs_spec {N : Nat} {sh : List Nat} (i : Nat) (memory : List Mem) (res : List (List Mem))
    (hm : ∀ m ∈ memory, m.Shaped N sh) (hr : ∀ r ∈ res, ∀ m ∈ r, m.Shaped N sh)
    (h2 : 2 ≤ memory.length ∨ ∀ r, res.head? = some r → 2 ≤ r.length) :
    ∃ es, selfPlayDirs i memory res = .ok es ∧ es.map Prod.fst = (List.range' i res.length).map spName ∧
      List.Forall₂ (fun e D => saveTrainingData D = .ok e.2 ∧ 2 ≤ D.length ∧ ∀ m ∈ D, m.Shaped N sh) es
        (cumul memory res) := by
  induction res generalizing i memory with
  | nil => exact ⟨[], rfl, rfl, .nil⟩
  | cons r res ih =>
    have hm' : ∀ m ∈ memory ++ r, m.Shaped N sh := by
      intro m hmem
      rcases List.mem_append.1 hmem with hmem | hmem
      · exact hm m hmem
      · exact hr r (List.mem_cons_self ..) m hmem
    have hl : 2 ≤ (memory ++ r).length := by
      rw [List.length_append]
      rcases h2 with h2 | h2
      · omega
      · have := h2 r rfl
        omega
    obtain ⟨es, h3, h4, h5⟩ := ih (i + 1) (memory ++ r) hm' (fun r' hr' => hr r' (List.mem_cons_of_mem _ hr')) (.inl hl)
    obtain ⟨ps, states, hs, _⟩ := save_spec (by intro e; rw [e] at hl; simp at hl) hm'
    refine ⟨(spName i, _) :: es, ?_, ?_, .cons ⟨hs, hl, hm'⟩ h5⟩
    · simp only [selfPlayDirs, bind, Except.bind]
      rw [hs, h3]
      rfl
    · rw [List.map_cons, h4, List.length_cons, List.range'_succ, List.map_cons]

theorem nodup_names {f : Nat → Name} (hf : ∀ {i j}, f i = f j → i = j) (i n : Nat) :
    ((List.range' i n).map f).Nodup :=
  List.Nodup.map (fun _ _ h => hf h) List.nodup_range'

/-- A learn directory. -/
theorem selfPlayDirs_yields {N : Nat} {sh : List Nat} (hN : N ≠ 1) (hsh : ∀ n ∈ sh, n ≠ 1) {res : List (List Mem)}
    (h : Fine N sh res) : ∃ es, selfPlayDirs 0 [] res = .ok es ∧ Yields (.dir es) (prefixes res) := by
  obtain ⟨es, h1, h2, h3⟩ := selfPlayDirs_spec 0 [] res (by simp) h.2 (.inr h.1)
  refine ⟨es, h1, ?_⟩
  rw [prefixes_eq]
  refine yields_sp hN hsh ?_ ?_ h3
  · rw [h2]
    exact nodup_names spName_inj _ _
  · intro e he
    have : e.1 ∈ es.map Prod.fst := List.mem_map_of_mem he
    rw [h2] at this
    obtain ⟨k, _, hk⟩ := List.mem_map.1 this
    rw [← hk]
    exact containsSp_spName k

theorem learnDirs_spec {N : Nat} {sh : List Nat} (hN : N ≠ 1) (hsh : ∀ n ∈ sh, n ≠ 1) (i : Nat)
    (ls : List (List (List Mem))) (h : ∀ res ∈ ls, Fine N sh res) :
    ∃ es, learnDirs i ls = .ok es ∧ es.map Prod.fst = (List.range' i ls.length).map lrnName ∧
      List.Forall₂ (fun e D => Yields e.2 D) es (ls.map prefixes) := by
  induction ls generalizing i with
  | nil => exact ⟨[], rfl, rfl, .nil⟩
  | cons l ls ih =>
    obtain ⟨es, h1, h2, h3⟩ := ih (i + 1) fun res hr => h res (List.mem_cons_of_mem _ hr)
    obtain ⟨d, h4, h5⟩ := selfPlayDirs_yields hN hsh (h l (List.mem_cons_self ..))
    refine ⟨(lrnName i, .dir d) :: es, ?_, ?_, .cons h5 h3⟩
    · simp only [learnDirs, bind, Except.bind]
      rw [h4, h1]
      rfl
    · rw [List.map_cons, h2, List.length_cons, List.range'_succ, List.map_cons]

/-- A run directory. -/
theorem learnDirs_yields {N : Nat} {sh : List Nat} (hN : N ≠ 1) (hsh : ∀ n ∈ sh, n ≠ 1) {ls : List (List (List Mem))}
    (h : ∀ res ∈ ls, Fine N sh res) :
    ∃ es, learnDirs 0 ls = .ok es ∧ Yields (.dir es) (ls.flatMap prefixes) := by
  obtain ⟨es, h1, h2, h3⟩ := learnDirs_spec hN hsh 0 ls h
  refine ⟨es, h1, ?_⟩
  refine yields_dir ?_ ?_ h3
  · rw [h2]
    exact nodup_names lrnName_inj _ _
  · intro e he
    have : e.1 ∈ es.map Prod.fst := List.mem_map_of_mem he
    rw [h2] at this
    obtain ⟨k, _, hk⟩ := List.mem_map.1 this
    rw [← hk]
    exact containsSp_lrnName k

theorem runDirs_spec {N : Nat} {sh : List Nat} (hN : N ≠ 1) (hsh : ∀ n ∈ sh, n ≠ 1)
    (runs : List (Name × List (List (List Mem)))) (h : ∀ r ∈ runs, ∀ res ∈ r.2, Fine N sh res) :
    ∃ es, runDirs runs = .ok es ∧ es.map Prod.fst = runs.map (fun r => runName r.1) ∧
      List.Forall₂ (fun e D => Yields e.2 D) es (runs.map fun r => r.2.flatMap prefixes) := by
  induction runs with
  | nil => exact ⟨[], rfl, rfl, .nil⟩
  | cons r runs ih =>
    obtain ⟨id, l⟩ := r
    obtain ⟨es, h1, h2, h3⟩ := ih fun r hr => h r (List.mem_cons_of_mem _ hr)
    obtain ⟨d, h4, h5⟩ := learnDirs_yields hN hsh (h (id, l) (List.mem_cons_self ..))
    refine ⟨(runName id, .dir d) :: es, ?_, ?_, .cons h5 h3⟩
    · simp only [runDirs, bind, Except.bind]
      rw [h4, h1]
      rfl
    · rw [List.map_cons, h2, List.map_cons]

/-- Training data of a selected directory. -/
theorem trainingData_of {root t : Tree} {run lrn sp : Option Name} {p : List Name} (hp : dataPath run lrn sp = .ok p)
    (ht : root.lookup p = some t) {D : List (List Mem)} (hD : Yields t D) :
    ∃ l, trainingData root run lrn sp = .ok l ∧ List.Forall₂ Mem.Kept D.flatten l := by
  obtain ⟨ls, h1, h2⟩ := hD root p ht
  refine ⟨ls.flatten, ?_, List.rel_flatten h2⟩
  unfold trainingData
  rw [hp]
  simp only [bind, Except.bind]
  rw [ht]
  simp only
  rw [h1]
  rfl

/-- The entries of a saved directory are not found by the search for data. -/
theorem allPaths_saved {data : List Mem} {t : Tree} (h : saveTrainingData data = .ok t) (p : List Name) : allPaths p t = [] := by
  unfold saveTrainingData at h
  simp only [bind, Except.bind] at h
  split at h
  · simp at h
  · split at h
    · simp at h
    · obtain rfl := Except.ok.inj h
      have h1 : containsSp psName = false := by decide
      have h2 : containsSp statesName = false := by decide
      have h3 : containsSp outcomesName = false := by decide
      simp [allPaths, allPathsIn, h1, h2, h3]

end DieE.Train
