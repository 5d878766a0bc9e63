import Verif.Net.Layers
import Verif.Props.TicTacToe
import Verif.Props.TensorBG
import Verif.Mcts.BatchSafe

/-!
# The network: shapes, saving and loading, independence of the rows of a batch (C59, C61, C62, C68)
-/

namespace DieE.Props.N
open DieE.Net DieE.Tensor
open DieE.Props.V (res_bind)
open DieE.Mcts (batchTensor batchTensor_ok)

variable {F : Type}

/-- A network built by the program: the layers of `ResNet::new`, and variables of its names and shapes with arbitrary
values (initial values, loaded values, or changed by training). -/
def Built (z : Sizes) (net : ResNet) (vs : VarStore F) : Prop :=
  ∃ init : Nat → List Nat → F, net = (ResNet.new init z (VarStore.empty F)).1 ∧
    layout vs = layout (ResNet.new init z (VarStore.empty F)).2

theorem built_new (init : Nat → List Nat → F) (z : Sizes) :
    Built z (ResNet.new init z (VarStore.empty F)).1 (ResNet.new init z (VarStore.empty F)).2 := ⟨init, rfl, rfl⟩

theorem built_fromPath {init : Nat → List Nat → F} {z : Sizes} {file : ModelFile F} {r : ResNet × VarStore F}
    (h : ResNet.fromPath init z file = .ok r) : Built z r.1 r.2 := by
  obtain ⟨vs, h1, h2⟩ := res_bind.1 h
  cases h2
  exact ⟨init, rfl, load_layout h1⟩

theorem load_empty (file : ModelFile F) : (VarStore.empty F).load file = .ok (VarStore.empty F) := rfl

theorem alphaZeroNew_eq (init : Nat → List Nat → F) (z : Sizes) (path best : Option (ModelFile F)) :
    alphaZeroNew init z path best = .ok (ResNet.new init z (VarStore.empty F)) := by
  unfold alphaZeroNew
  cases path <;> cases best <;> rfl

theorem built_alphaZeroNew {init : Nat → List Nat → F} {z : Sizes} {path best : Option (ModelFile F)}
    {r : ResNet × VarStore F} (h : alphaZeroNew init z path best = .ok r) : Built z r.1 r.2 := by
  rw [alphaZeroNew_eq] at h
  cases h
  exact built_new init z

theorem Built.fits {z : Sizes} {net : ResNet} {vs : VarStore F} (h : Built z net vs) : net.Fits vs z := by
  obtain ⟨init, rfl, h2⟩ := h
  exact (ResNet.new_fits init good_empty z).2.mono (keeps_of_layout h2.symm)

theorem Built.nodup {z : Sizes} {net : ResNet} {vs : VarStore F} (h : Built z net vs) : vs.names.Nodup := by
  obtain ⟨init, rfl, h2⟩ := h
  rw [names_of_layout h2]
  exact (ResNet.new_fits init good_empty z).1.good.nodup

/-! ## C59: shapes -/

theorem mapM_ok {α β : Type} {f : α → Res β} (l : List α) (h : ∀ a ∈ l, ∃ b, f a = .ok b) :
    ∃ bs, l.mapM f = .ok bs ∧ List.Forall₂ (fun a b => f a = .ok b) l bs := by
  induction l with
  | nil => exact ⟨[], rfl, .nil⟩
  | cons a l ih =>
    obtain ⟨b, hb⟩ := h a (List.mem_cons_self ..)
    obtain ⟨bs, h1, h2⟩ := ih fun a ha => h a (List.mem_cons_of_mem _ ha)
    refine ⟨b :: bs, ?_, .cons hb h2⟩
    rw [List.mapM_cons, hb]
    show (l.mapM f >>= fun bs => pure (b :: bs)) = _
    rw [h1]
    rfl

theorem ttt_tensor (s : TTT.State) : ∃ t, TTT.asTensor s = .ok t ∧ t.shape = [1, 3, 3, 3] :=
  let ⟨t, h1, h2, _⟩ := T.tensor_content s
  ⟨t, h1, h2⟩

theorem bg_tensor {s : BG.State} (h : s.roll ≠ (0, 0)) : ∃ t, BG.asTensor s = .ok t ∧ t.shape = [1, 6, 4, 6] :=
  let ⟨t, h1, h2, _⟩ := (C23_content s).2 h
  ⟨t, h1, h2⟩

/-- What a network with `actions` outputs is expected to do with an input of `n` rows. -/
def Accepts (A : Arith) (net : ResNet) (vs : VarStore A.F) (n actions : Nat) (x : Tensor Int) : Prop :=
  ∀ train, (∃ p v, net.forward A vs train (mapT A.ofInt x) = .ok (p, v) ∧ p.shape = [n, actions] ∧ v.shape = [n, 1]) ∧
    (∃ p, net.forwardPolicy A vs train (mapT A.ofInt x) = .ok p ∧ p.shape = [n, actions]) ∧
    ∃ p v, net.forwardTrain A vs train (mapT A.ofInt x) = .ok (p, v) ∧ p.shape = [n, actions] ∧ v.shape = [n, 1]

theorem accepts_of {A : Arith} {z : Sizes} {net : ResNet} {vs : VarStore A.F} (hb : Built z net vs) {n h w : Nat}
    (hn : 0 < n) (hh : 0 < h) (hz : h * w = z.convOut) (hw : 2 ≤ w) {x : Tensor Int}
    (hx : x.shape = [n, z.channels, h, w]) : Accepts A net vs n z.actions x := by
  intro train
  have h2 : 2 ≤ n * h * w := by
    have h1 : 1 ≤ n * h := Nat.mul_pos hn hh
    calc 2 ≤ 1 * w := by omega
      _ ≤ n * h * w := Nat.mul_le_mul_right _ h1
  obtain ⟨⟨p, v, h3, h4, h5, h6⟩, h7⟩ := ResNet.forward_ok (train := train) hb.fits hh (by omega : 0 < w) (fun _ => h2) hz
    (x := mapT A.ofInt x) hx
  exact ⟨⟨p, v, h3, h4, h5⟩, ⟨p, h6, h4⟩, h7⟩

theorem batch_of {α : Type} {f : α → Res (Tensor Int)} {sh : List Nat} {ss : List α} (hne : ss ≠ [])
    (h : ∀ s ∈ ss, ∃ t, f s = .ok t ∧ t.shape = 1 :: sh) :
    ∃ ts x, ss.mapM f = .ok ts ∧ batchTensor ts = .ok x ∧ x.shape = ss.length :: sh := by
  obtain ⟨ts, h1, h2⟩ := mapM_ok ss fun s hs => (h s hs).imp fun _ => And.left
  have hl : ss.length = ts.length := h2.length_eq
  obtain ⟨x, h3, h4⟩ := batchTensor_ok (sh := sh) (ts := ts) (by
      intro e
      rw [e] at hl
      exact hne (List.length_eq_zero_iff.1 hl)) (by
      intro t ht
      obtain ⟨i, hi, rfl⟩ := List.getElem_of_mem ht
      have hf := h2.get (i := i) (by omega) hi
      obtain ⟨u, hu1, hu2⟩ := h (ss.get ⟨i, by omega⟩) (List.get_mem ..)
      rw [hu1] at hf
      cases hf
      exact hu2)
  exact ⟨ts, x, h1, h3, by rw [h4, hl]⟩

/-- C59 for TicTacToe: a network of the program, whatever the values of its variables, evaluates every non-empty batch
of positions, in evaluation and in training mode; the policy has one row of `ACTION_SPACE_SIZE` entries and the value one
entry per position. -/
theorem C59_tictactoe (A : Arith) {net : ResNet} {vs : VarStore A.F} (hb : Built tttSizes net vs) {ss : List TTT.State}
    (hne : ss ≠ []) :
    ∃ ts x, ss.mapM TTT.asTensor = .ok ts ∧ batchTensor ts = .ok x ∧ Accepts A net vs ss.length 9 x := by
  obtain ⟨ts, x, h1, h2, h3⟩ := batch_of hne fun s _ => ttt_tensor s
  exact ⟨ts, x, h1, h2, accepts_of hb (List.length_pos_iff.2 hne) (h := 3) (by decide) (by decide) (by decide) h3⟩

/-- C59 for Backgammon; the dice of all positions have been rolled. -/
theorem C59_backgammon (A : Arith) {net : ResNet} {vs : VarStore A.F} (hb : Built bgSizes net vs) {ss : List BG.State}
    (hne : ss ≠ []) (hr : ∀ s ∈ ss, s.roll ≠ (0, 0)) :
    ∃ ts x, ss.mapM BG.asTensor = .ok ts ∧ batchTensor ts = .ok x ∧ Accepts A net vs ss.length 1352 x := by
  obtain ⟨ts, x, h1, h2, h3⟩ := batch_of hne fun s hs => bg_tensor (hr s hs)
  exact ⟨ts, x, h1, h2, accepts_of hb (List.length_pos_iff.2 hne) (h := 4) (by decide) (by decide) (by decide) h3⟩

/-- C59, single positions (used by `alpha_mcts`, without stacking). -/
theorem C59_single (A : Arith) :
    (∀ {net : ResNet} {vs : VarStore A.F}, Built tttSizes net vs → ∀ s, ∃ x, TTT.asTensor s = .ok x ∧
      Accepts A net vs 1 9 x) ∧
    (∀ {net : ResNet} {vs : VarStore A.F}, Built bgSizes net vs → ∀ s : BG.State, s.roll ≠ (0, 0) →
      ∃ x, BG.asTensor s = .ok x ∧ Accepts A net vs 1 1352 x) := by
  constructor
  · intro net vs hb s
    obtain ⟨x, h1, h2⟩ := ttt_tensor s
    exact ⟨x, h1, accepts_of hb (by decide) (h := 3) (by decide) (by decide) (by decide) h2⟩
  · intro net vs hb s hs
    obtain ⟨x, h1, h2⟩ := bg_tensor hs
    exact ⟨x, h1, accepts_of hb (by decide) (h := 4) (by decide) (by decide) (by decide) h2⟩

/-- The results of the network as the searches use them (`Verif/Mcts/Alpha.lean`): entries are converted by `conv`.  What
lies outside the tensor is never read. -/
def asSearchNet {Fl : Mcts.Floats} (A : Arith) (conv : A.F → Fl.F) (net : ResNet) (vs : VarStore A.F)
    (rest : Mcts.Net Fl) : Mcts.Net Fl :=
  { rest with
    policy := fun x i c => match net.forward A vs false (mapT A.ofInt x) with
      | .ok (p, _) => if c < p.shape.getD 1 0 then conv (p.at' [i, c]) else conv (A.ofInt 0)
      | .error _ => rest.policy x i c
    eval := fun x i => match net.forward A vs false (mapT A.ofInt x) with
      | .ok (_, v) => conv (v.at' [i, 0])
      | .error _ => rest.eval x i }

/-- C59, for the searches: their model of the network (tensors of a fixed shape) is what the network returns. -/
theorem C59_search {Fl : Mcts.Floats} (A : Arith) (conv : A.F → Fl.F) {net : ResNet} {vs : VarStore A.F}
    (rest : Mcts.Net Fl) {G : Game} {n : Nat} {x : Tensor Int} (hx : x.shape.headD 0 = n)
    (ha : Accepts A net vs n G.actionSpace x) :
    ∃ p v, net.forward A vs false (mapT A.ofInt x) = .ok (p, v) ∧
      net.forwardPolicy A vs false (mapT A.ofInt x) = .ok p ∧
      Same (mapT conv p) ((asSearchNet A conv net vs rest).policyTensor G x) ∧
      Same (mapT conv v) ((asSearchNet A conv net vs rest).evalTensor x) := by
  obtain ⟨⟨p, v, h1, h2, h3⟩, ⟨q, h4, -⟩, -⟩ := ha false
  have hq : q = p := by
    obtain ⟨y, e, h1'⟩ := res_bind.1 h1
    obtain ⟨p1, e1, h1'⟩ := res_bind.1 h1'
    obtain ⟨p2, e2, h1'⟩ := res_bind.1 h1'
    obtain ⟨p3, e3, h1'⟩ := res_bind.1 h1'
    cases h1'
    obtain ⟨y', f, h4⟩ := res_bind.1 h4
    obtain ⟨q1, f1, h4⟩ := res_bind.1 h4
    rw [e] at f
    cases f
    rw [e1] at f1
    cases f1
    rw [e2] at h4
    cases h4
    rfl
  subst hq
  refine ⟨q, v, h1, h4, ⟨?_, ?_⟩, ⟨?_, ?_⟩⟩
  · show q.shape = _
    rw [h2, ← hx]
    rfl
  · intro idx hi
    rw [show (mapT conv q).shape = [n, G.actionSpace] from h2] at hi
    match idx, hi with
    | [i, c], hi =>
      show conv (q.at' [i, c]) = match net.forward A vs false (mapT A.ofInt x) with
        | .ok (p, _) => if c < p.shape.getD 1 0 then conv (p.at' [i, c]) else conv (A.ofInt 0)
        | .error _ => rest.policy x i c
      rw [h1]
      exact (if_pos (by rw [h2]; exact hi.2.1)).symm
  · show v.shape = _
    rw [h3, ← hx]
    rfl
  · intro idx hi
    rw [show (mapT conv v).shape = [n, 1] from h3] at hi
    match idx, hi with
    | [i, c], hi =>
      have hc : c = 0 := by
        have := hi.2.1
        omega
      subst hc
      show conv (v.at' [i, 0]) = match net.forward A vs false (mapT A.ofInt x) with
        | .ok (_, v) => conv (v.at' [i, 0])
        | .error _ => rest.eval x i
      rw [h1]

/-- Integers with trivial functions, for examples. -/
def demoArith : Arith where
  F := Int
  zero := 0
  add := (· + ·)
  mul := (· * ·)
  div := (· / ·)
  ofInt := id
  relu := fun x => max x 0
  tanh := fun x => max (-1) (min 1 x)
  exp := fun x => x
  norm := fun x m _ w b => (x - m) * w + b
  mean := List.sum
  var := List.sum

/-- Both games have networks, and batches of two positions. -/
example : ∃ (net : ResNet) (vs : VarStore demoArith.F), Built tttSizes net vs := ⟨_, _, built_new (fun _ _ => (0 : Int)) _⟩
example : ∃ (net : ResNet) (vs : VarStore demoArith.F), Built bgSizes net vs := ⟨_, _, built_new (fun _ _ => (1 : Int)) _⟩
example : ([TTT.new, { TTT.new with player := 1 }] : List TTT.State) ≠ [] ∧
    ∀ s ∈ [({ BG.new with roll := (3, 1) } : BG.State)], s.roll ≠ (0, 0) := by decide

/-! ## C61: a stored model is not loaded -/

/-- What C61 asks for: after a stored model has been given, all variables have the stored values. -/
def C61_statement (F : Type) : Prop :=
  ∀ (init : Nat → List Nat → F) (z : Sizes) (net : ResNet) (stored : VarStore F) (best : Option (ModelFile F)),
    Built z net stored → ∃ r, alphaZeroNew init z (some stored.save) best = .ok r ∧ SameVars r.2 stored

/-- C61: the network of `AlphaZero::new` does not depend on the file at all, neither on one given by the user nor on the
stored best model: `load` runs before the variables exist. -/
theorem C61_ignored (init : Nat → List Nat → F) (z : Sizes) (path best : Option (ModelFile F)) :
    alphaZeroNew init z path best = .ok (ResNet.new init z (VarStore.empty F)) := alphaZeroNew_eq init z path best

theorem mem_of_lookup {l : List (Train.Name × Tensor F)} {n : Train.Name} {x : Tensor F} (hl : l.lookup n = some x) :
    (n, x) ∈ l := by
  induction l with
  | nil => cases hl
  | cons e l ih =>
    obtain ⟨k, y⟩ := e
    rw [List.lookup_cons] at hl
    by_cases hk : n = k
    · subst hk
      simp only [beq_self_eq_true] at hl
      cases hl
      exact List.mem_cons_self ..
    · have : (n == k) = false := by simpa using hk
      rw [this] at hl
      exact List.mem_cons_of_mem _ (ih hl)

open Classical in
/-- All entries changed. -/
noncomputable def changed (a b : F) (vs : VarStore F) : VarStore F :=
  ⟨vs.named.map fun e => (e.1, ⟨e.2.shape, fun idx => if e.2.at' idx = a then b else a⟩)⟩

theorem changed_layout (a b : F) (vs : VarStore F) : layout (changed a b vs) = layout vs := by
  unfold layout changed
  rw [List.map_map]
  rfl

theorem changed_ne {a b : F} (hab : a ≠ b) {vs : VarStore F} {n : Train.Name} {k : Nat} (hk : 0 < k) (hn : Has vs n [k]) :
    ¬ SameVars vs (changed a b vs) := by
  intro h2
  obtain ⟨x, hx, hs⟩ := hn
  have h3 := List.forall₂_same.1 (List.forall₂_map_right_iff.1 h2) _ (mem_of_lookup hx)
  have h4 := h3.2.2 [0] (by rw [hs]; exact ⟨hk, trivial⟩)
  simp only at h4
  split at h4
  · rename_i e
    exact hab (e.symm.trans h4)
  · contradiction

/-- C61 is false for every type of numbers with two values: the initial values stay. -/
theorem C61_refuted {a b : F} (hab : a ≠ b) : ¬ C61_statement F := by
  intro h
  have hb : Built tttSizes (ResNet.new (fun _ _ => a) tttSizes (VarStore.empty F)).1
      (changed a b (ResNet.new (fun _ _ => a) tttSizes (VarStore.empty F)).2) := ⟨_, rfl, changed_layout ..⟩
  obtain ⟨r, h1, h2⟩ := h (fun _ _ => a) tttSizes _ _ none hb
  rw [C61_ignored] at h1
  obtain rfl := Except.ok.inj h1
  exact changed_ne hab (by decide) (built_new _ tttSizes).fits.conv.2 h2

/-- In particular for numbers. -/
example : ¬ C61_statement Int := C61_refuted (a := 0) (b := 1) (by decide)

/-! ## C62: `from_path` restores a saved network -/

/-- C62: the variables of a network built by the program, saved (in any order, as the store is a hash map) and loaded by
`from_path`: no error, the same layers, the same variables. -/
theorem C62_restored (init : Nat → List Nat → F) {z : Sizes} {net : ResNet} {vs : VarStore F} (hb : Built z net vs)
    {file : ModelFile F} (hf : file.Perm vs.save) :
    ∃ vs', ResNet.fromPath init z file = .ok (net, vs') ∧ SameVars vs' vs := by
  have hd := hb.nodup
  obtain ⟨init', rfl, h2⟩ := hb
  have ha := ResNet.new_alike init init' z (a := VarStore.empty F) rfl
  obtain ⟨vs', h3, h4⟩ := load_same (ha.2.trans h2.symm) hd hf
  refine ⟨vs', ?_, h4⟩
  unfold ResNet.fromPath
  show ((ResNet.new init z (VarStore.empty F)).2.load file >>= fun vs => pure ((ResNet.new init z _).1, vs)) = _
  rw [h3, ha.1]
  rfl

/-- C62, what this means for the results: the restored network evaluates every batch like the saved one. -/
theorem C62_results (A : Arith) (init : Nat → List Nat → A.F) {z : Sizes} {net : ResNet} {vs : VarStore A.F}
    (hb : Built z net vs) {file : ModelFile A.F} (hf : file.Perm vs.save) {n h w : Nat} (hh : 0 < h) (hw : 0 < w)
    (hz : h * w = z.convOut) {x : Tensor A.F} (hx : x.shape = [n, z.channels, h, w]) :
    ∃ r p v p' v', ResNet.fromPath init z file = .ok r ∧ net.forward A vs false x = .ok (p, v) ∧
      r.1.forward A r.2 false x = .ok (p', v') ∧ Same p' p ∧ Same v' v := by
  obtain ⟨vs', h1, h2⟩ := C62_restored init hb hf
  obtain ⟨⟨p, v, e1, s1, s2, -⟩, -⟩ := ResNet.forward_ok (train := false) hb.fits hh hw (by simp) hz hx
  obtain ⟨⟨p', v', e2, s3, s4, -⟩, -⟩ := ResNet.forward_ok (train := false) (built_fromPath h1).fits hh hw (by simp) hz hx
  refine ⟨_, p, v, p', v', h1, e1, e2, ?_, ?_⟩
  · exact same_of_rows s3 s1 fun j hj => (ResNet.forward_row h2.agree (rows_of_same hx (.refl x) hj) e2 e1).1
  · exact same_of_rows s4 s2 fun j hj => (ResNet.forward_row h2.agree (rows_of_same hx (.refl x) hj) e2 e1).2

example : ∃ vs', ResNet.fromPath (fun _ _ => (0 : Int)) tttSizes
      (ResNet.new (fun k _ => (k : Int)) tttSizes (VarStore.empty Int)).2.save.reverse =
        .ok ((ResNet.new (fun k _ => (k : Int)) tttSizes (VarStore.empty Int)).1, vs') ∧
      SameVars vs' (ResNet.new (fun k _ => (k : Int)) tttSizes (VarStore.empty Int)).2 :=
  C62_restored _ (built_new _ _) (List.reverse_perm _)

/-- A file in which a variable is missing is rejected. -/
theorem C62_missing (init : Nat → List Nat → F) (z : Sizes) {file : ModelFile F}
    (hm : ∃ n ∈ (ResNet.new init z (VarStore.empty F)).2.names, file.lookup n = none) :
    ∀ r, ResNet.fromPath init z file ≠ .ok r := by
  intro r h
  obtain ⟨vs, h1, -⟩ := res_bind.1 h
  obtain ⟨l, h2, -⟩ := res_bind.1 h1
  obtain ⟨n, hn, hl⟩ := hm
  revert h2 l
  obtain ⟨e, he, rfl⟩ := List.mem_map.1 hn
  generalize (ResNet.new init z (VarStore.empty F)).2.named = named at he
  intro l h2
  induction named generalizing l with
  | nil => cases he
  | cons d named ih =>
    obtain ⟨k, x⟩ := d
    unfold loadVars at h2
    obtain ⟨y, h3, h4⟩ := res_bind.1 h2
    obtain ⟨ys, h5, -⟩ := res_bind.1 h4
    rcases List.mem_cons.1 he with he | he
    · subst he
      simp only at hl
      rw [hl] at h3
      cases h3
    · exact ih he ys h5

example : ∃ n ∈ (ResNet.new (fun _ _ => (0 : Int)) tttSizes (VarStore.empty Int)).2.names,
    ([] : ModelFile Int).lookup n = none := by
  obtain ⟨x, hx, -⟩ := (built_new (F := Int) (fun _ _ => (0 : Int)) tttSizes).fits.conv.1
  refine ⟨(ResNet.new (fun _ _ => (0 : Int)) tttSizes (VarStore.empty Int)).1.conv.w, ?_, rfl⟩
  by_contra hc
  unfold VarStore.get at hx
  rw [lookup_none_of hc] at hx
  cases hx

/-! ## C68: rows of a batch are evaluated independently -/

theorem batch_rows {ts : List (Tensor Int)} {sh : List Nat} {x : Tensor Int} (hs : ∀ t ∈ ts, t.shape = 1 :: sh)
    (h : batchTensor ts = .ok x) {j : Nat} {t : Tensor Int} (hj : ts[j]? = some t) : RowEq j 0 x t := by
  have hne : ts ≠ [] := by
    rintro rfl
    cases hj
  obtain ⟨y, h1, h2, h3⟩ := stack_ok hne hs
  unfold batchTensor at h
  rw [h1] at h
  have h : y.squeezeDim1 = .ok x := h
  unfold squeezeDim1 at h
  rw [h2] at h
  simp only [if_true] at h
  cases h
  have hlt : j < ts.length := (List.getElem?_eq_some_iff.1 hj).1
  exact .mk' rfl (hs t (List.mem_of_getElem? hj)) hlt (by decide) fun idx _ => h3 j t hj _

/-- Row `j` of a result is row `k` of another. -/
def SameRow (j k width : Nat) (x y : Tensor F) : Prop := ∀ c, c < width → x.at' [j, c] = y.at' [k, c]

theorem sameRow_of {j k n width : Nat} {x y : Tensor F} (h : RowEq j k x y) (hs : x.shape = [n, width]) :
    SameRow j k width x y := fun c hc => h.same [c] (by rw [hs]; exact ⟨hc, trivial⟩)

/-- C68, inputs: in evaluation mode a row of the policy and the value depend only on the same row of the input. -/
theorem C68_rows (A : Arith) {z : Sizes} {net : ResNet} {vs : VarStore A.F} (hb : Built z net vs) {h w n m : Nat}
    (hh : 0 < h) (hw : 0 < w) (hz : h * w = z.convOut) {x y : Tensor A.F} (hx : x.shape = [n, z.channels, h, w])
    (hy : y.shape = [m, z.channels, h, w]) {j k : Nat} (hj : j < n) (hk : k < m)
    (hr : ∀ c a b, c < z.channels → a < h → b < w → x.at' [j, c, a, b] = y.at' [k, c, a, b]) :
    ∃ p v p' v', net.forward A vs false x = .ok (p, v) ∧ net.forward A vs false y = .ok (p', v') ∧
      SameRow j k z.actions p p' ∧ SameRow j k 1 v v' := by
  obtain ⟨⟨p, v, e1, s1, s2, -⟩, -⟩ := ResNet.forward_ok (train := false) hb.fits hh hw (by simp) hz hx
  obtain ⟨⟨p', v', e2, s3, s4, -⟩, -⟩ := ResNet.forward_ok (train := false) hb.fits hh hw (by simp) hz hy
  have hrow : RowEq j k x y := .mk' hx hy hj hk fun idx hi => by
    obtain ⟨c, a, b, rfl, h1, h2, h3⟩ := inShape3 hi
    exact hr c a b h1 h2 h3
  obtain ⟨r1, r2⟩ := ResNet.forward_row (Agree.refl vs) hrow e1 e2
  exact ⟨p, v, p', v', e1, e2, sameRow_of r1 s1, sameRow_of r2 s2⟩

theorem states_row {α : Type} (A : Arith) {z : Sizes} {net : ResNet} {vs : VarStore A.F} (hb : Built z net vs) {h w : Nat}
    (hh : 0 < h) (hw : 0 < w) (hz : h * w = z.convOut) {f : α → Res (Tensor Int)} {ss : List α}
    (hf : ∀ s ∈ ss, ∃ t, f s = .ok t ∧ t.shape = [1, z.channels, h, w]) {j : Nat} {s : α} (hj : ss[j]? = some s)
    {t x : Tensor Int} {ts : List (Tensor Int)} (ht : f s = .ok t) (hts : ss.mapM f = .ok ts)
    (hx : batchTensor ts = .ok x) {p v p' v' : Tensor A.F}
    (h1 : net.forward A vs false (mapT A.ofInt x) = .ok (p, v))
    (h2 : net.forward A vs false (mapT A.ofInt t) = .ok (p', v')) :
    SameRow j 0 z.actions p p' ∧ SameRow j 0 1 v v' := by
  obtain ⟨ts', h3, h4⟩ := mapM_ok ss fun s hs => (hf s hs).imp fun _ => And.left
  rw [h3] at hts
  obtain rfl := Except.ok.inj hts
  have hlt : j < ss.length := (List.getElem?_eq_some_iff.1 hj).1
  have hl := h4.length_eq
  have hshape : ∀ u ∈ ts', u.shape = 1 :: [z.channels, h, w] := by
    intro u hu
    obtain ⟨i, hi, rfl⟩ := List.getElem_of_mem hu
    have hfi := h4.get (i := i) (by omega) hi
    obtain ⟨u, hu1, hu2⟩ := hf (ss.get ⟨i, by omega⟩) (List.get_mem ..)
    rw [hu1] at hfi
    cases hfi
    exact hu2
  have htj : ts'[j]? = some t := by
    rw [List.getElem?_eq_getElem (by omega : j < ts'.length)]
    have := h4.get (i := j) hlt (by omega)
    rw [List.get_eq_getElem, List.get_eq_getElem, (List.getElem?_eq_some_iff.1 hj).2, ht] at this
    cases this
    rfl
  have hrow := batch_rows hshape hx htj
  obtain ⟨r1, r2⟩ := ResNet.forward_row (Agree.refl vs) (hrow.map A.ofInt) h1 h2
  have hxs : x.shape = [ts'.length, z.channels, h, w] := by
    obtain ⟨x', h5, h6⟩ := batchTensor_ok (by rintro rfl; simp at htj) hshape
    rw [hx] at h5
    cases h5
    exact h6
  obtain ⟨⟨_, _, e1, s1, s2, -⟩, -⟩ := ResNet.forward_ok (train := false) hb.fits hh hw (by simp) hz
    (x := mapT A.ofInt x) hxs
  rw [h1] at e1
  cases e1
  exact ⟨sameRow_of r1 s1, sameRow_of r2 s2⟩

/-- C68 for TicTacToe: what the network says about a position in a batch is what it says about the position alone. -/
theorem C68_tictactoe (A : Arith) {net : ResNet} {vs : VarStore A.F} (hb : Built tttSizes net vs) {ss : List TTT.State}
    {j : Nat} {s : TTT.State} (hj : ss[j]? = some s) {t x : Tensor Int} {ts : List (Tensor Int)}
    (ht : TTT.asTensor s = .ok t) (hts : ss.mapM TTT.asTensor = .ok ts) (hx : batchTensor ts = .ok x)
    {p v p' v' : Tensor A.F} (h1 : net.forward A vs false (mapT A.ofInt x) = .ok (p, v))
    (h2 : net.forward A vs false (mapT A.ofInt t) = .ok (p', v')) : SameRow j 0 9 p p' ∧ SameRow j 0 1 v v' :=
  states_row A hb (h := 3) (w := 3) (by decide) (by decide) (by decide) (fun s _ => ttt_tensor s) hj ht hts hx h1 h2

/-- C68 for Backgammon. -/
theorem C68_backgammon (A : Arith) {net : ResNet} {vs : VarStore A.F} (hb : Built bgSizes net vs) {ss : List BG.State}
    (hr : ∀ s ∈ ss, s.roll ≠ (0, 0)) {j : Nat} {s : BG.State} (hj : ss[j]? = some s) {t x : Tensor Int}
    {ts : List (Tensor Int)} (ht : BG.asTensor s = .ok t) (hts : ss.mapM BG.asTensor = .ok ts)
    (hx : batchTensor ts = .ok x) {p v p' v' : Tensor A.F}
    (h1 : net.forward A vs false (mapT A.ofInt x) = .ok (p, v))
    (h2 : net.forward A vs false (mapT A.ofInt t) = .ok (p', v')) : SameRow j 0 1352 p p' ∧ SameRow j 0 1 v v' :=
  states_row A hb (h := 4) (w := 6) (by decide) (by decide) (by decide) (fun s hs => bg_tensor (hr s hs)) hj ht hts hx h1 h2

/-- The situation of `C68_tictactoe` exists: two positions, the second one also alone. -/
example : ∃ (net : ResNet) (vs : VarStore demoArith.F) (t x : Tensor Int) (ts : List (Tensor Int))
    (p v p' v' : Tensor demoArith.F), Built tttSizes net vs ∧
    [TTT.new, { TTT.new with player := 1 }].mapM TTT.asTensor = .ok ts ∧ batchTensor ts = .ok x ∧
    TTT.asTensor { TTT.new with player := 1 } = .ok t ∧ net.forward demoArith vs false (mapT demoArith.ofInt x) = .ok (p, v) ∧
    net.forward demoArith vs false (mapT demoArith.ofInt t) = .ok (p', v') := by
  have hb := built_new (F := demoArith.F) (fun k _ => (k : Int)) tttSizes
  obtain ⟨ts, x, h1, h2, h3⟩ := C59_tictactoe demoArith hb (ss := [TTT.new, { TTT.new with player := 1 }]) (by simp)
  obtain ⟨t, h4, h5⟩ := (C59_single demoArith).1 hb { TTT.new with player := 1 }
  obtain ⟨⟨p, v, h6, -⟩, -⟩ := h3 false
  obtain ⟨⟨p', v', h7, -⟩, -⟩ := h5 false
  exact ⟨_, _, t, x, ts, p, v, p', v', hb, h1, h2, h4, h6, h7⟩

end DieE.Props.N
