import Verif.Net.Model
import Verif.Train.DataFacts
import Verif.Versus.Games
import Mathlib.Data.List.Forall2

/-! # Facts about variable stores: names, creation, saving and loading -/

namespace DieE.Net
open DieE.Train (Name digits digits_inj)
open DieE.Props.V (res_bind)

variable {F : Type}

/-- The names requested by the layers. -/
def bases : List Name := [weight, bias, runningMean, runningVar]

/-- All names come from requests of layers, and no name is used twice. -/
structure Good (vs : VarStore F) : Prop where
  nodup : vs.names.Nodup
  from' : ∀ n ∈ vs.names, n ∈ bases ∨ ∃ b ∈ bases, ∃ k, k < vs.named.length ∧ n = b ++ ['_', '_'] ++ digits k

theorem good_empty : Good (VarStore.empty F) := ⟨List.nodup_nil, by simp [VarStore.empty, VarStore.names]⟩

theorem numbered_ne {b b' : Name} (hb : b ∈ bases) (hb' : b' ∈ bases) (k : Nat) : b ++ ['_', '_'] ++ digits k ≠ b' := by
  simp only [bases, List.mem_cons, List.not_mem_nil, or_false] at hb hb'
  rcases hb with rfl | rfl | rfl | rfl <;> rcases hb' with rfl | rfl | rfl | rfl <;>
    simp [weight, bias, runningMean, runningVar]

theorem numbered_inj {b b' : Name} (hb : b ∈ bases) (hb' : b' ∈ bases) {k k' : Nat}
    (h : b ++ ['_', '_'] ++ digits k = b' ++ ['_', '_'] ++ digits k') : k = k' := by
  simp only [bases, List.mem_cons, List.not_mem_nil, or_false] at hb hb'
  apply digits_inj
  rcases hb with rfl | rfl | rfl | rfl <;> rcases hb' with rfl | rfl | rfl | rfl <;>
    simp [weight, bias, runningMean, runningVar] at h <;> exact h

theorem length_names (vs : VarStore F) : vs.names.length = vs.named.length := List.length_map ..

theorem fresh_new {vs : VarStore F} (hg : Good vs) {b : Name} (hb : b ∈ bases) : vs.fresh b ∉ vs.names := by
  unfold VarStore.fresh
  split
  · intro hm
    rcases hg.from' _ hm with h | ⟨b', hb', k, hk, h⟩
    · exact numbered_ne hb h _ rfl
    · have := numbered_inj hb hb' h
      omega
  · assumption

theorem var_named {vs : VarStore F} (hg : Good vs) {b : Name} (hb : b ∈ bases) (init : Nat → List Nat → F) (sh : List Nat) :
    (vs.var init b sh).2.named = vs.named ++ [(vs.fresh b, ⟨sh, init vs.named.length⟩)] := by
  show insertVar _ _ _ = _
  unfold insertVar
  exact if_neg (fresh_new hg hb)

theorem var_names {vs : VarStore F} (hg : Good vs) {b : Name} (hb : b ∈ bases) (init : Nat → List Nat → F) (sh : List Nat) :
    (vs.var init b sh).2.names = vs.names ++ [vs.fresh b] := by
  unfold VarStore.names
  rw [var_named hg hb, List.map_append]
  rfl

theorem good_var {vs : VarStore F} (hg : Good vs) {b : Name} (hb : b ∈ bases) (init : Nat → List Nat → F) (sh : List Nat) :
    Good (vs.var init b sh).2 := by
  have hn := var_names hg hb init sh
  have hl : (vs.var init b sh).2.named.length = vs.named.length + 1 := by rw [var_named hg hb]; simp
  constructor
  · rw [hn]
    refine List.nodup_append.2 ⟨hg.nodup, List.nodup_singleton _, ?_⟩
    intro a ha c hc
    rw [List.mem_singleton] at hc
    subst hc
    intro e
    subst e
    exact fresh_new hg hb ha
  · intro n hm
    rw [hn, List.mem_append, List.mem_singleton] at hm
    rcases hm with hm | rfl
    · rcases hg.from' n hm with h | ⟨b', hb', k, hk, h⟩
      · exact .inl h
      · exact .inr ⟨b', hb', k, by omega, h⟩
    · unfold VarStore.fresh
      split
      · exact .inr ⟨b, hb, _, by omega, rfl⟩
      · exact .inl hb

/-- A variable exists and has the given shape. -/
def Has (vs : VarStore F) (n : Name) (sh : List Nat) : Prop := ∃ x, vs.get n = some x ∧ x.shape = sh

/-- A later store: still good, all variables kept. -/
structure Grows (vs vs' : VarStore F) : Prop where
  good : Good vs'
  kept : ∀ n x, vs.get n = some x → vs'.get n = some x

theorem Grows.trans {a b c : VarStore F} (h : Grows a b) (h' : Grows b c) : Grows a c :=
  ⟨h'.good, fun n x hx => h'.kept n x (h.kept n x hx)⟩

theorem Grows.has {a b : VarStore F} (h : Grows a b) {n : Name} {sh : List Nat} (hh : Has a n sh) : Has b n sh :=
  let ⟨x, h1, h2⟩ := hh
  ⟨x, h.kept n x h1, h2⟩

theorem lookup_none_of {l : List (Name × Tensor F)} {n : Name} (h : n ∉ l.map Prod.fst) : l.lookup n = none := by
  induction l with
  | nil => rfl
  | cons e l ih =>
    simp only [List.map_cons, List.mem_cons, not_or] at h
    obtain ⟨k, x⟩ := e
    rw [List.lookup_cons]
    have : (n == k) = false := by simpa using h.1
    rw [this]
    exact ih h.2

theorem grows_var {vs : VarStore F} (hg : Good vs) {b : Name} (hb : b ∈ bases) (init : Nat → List Nat → F) (sh : List Nat) :
    Grows vs (vs.var init b sh).2 ∧ Has (vs.var init b sh).2 (vs.var init b sh).1 sh := by
  refine ⟨⟨good_var hg hb init sh, ?_⟩, ⟨⟨sh, init vs.named.length⟩, ?_, rfl⟩⟩
  · intro n x hx
    unfold VarStore.get at *
    rw [var_named hg hb, List.lookup_append, hx]
    rfl
  · unfold VarStore.get
    rw [var_named hg hb, List.lookup_append, show (vs.var init b sh).1 = vs.fresh b from rfl,
      lookup_none_of (fresh_new hg hb)]
    simp

/-! ## Layers and their variables -/

/-- The variables of a convolution have the right shapes. -/
def Conv.Fits (vs : VarStore F) (c : Conv) (inp out : Nat) : Prop := Has vs c.w [out, inp, 3, 3] ∧ Has vs c.b [out]
/-- The variables of a normalisation have the right shapes. -/
def Norm.Fits (vs : VarStore F) (l : Norm) (out : Nat) : Prop :=
  Has vs l.mean [out] ∧ Has vs l.var [out] ∧ Has vs l.w [out] ∧ Has vs l.b [out]
/-- The variables of a linear layer have the right shapes. -/
def Linear.Fits (vs : VarStore F) (l : Linear) (inp out : Nat) : Prop := Has vs l.w [out, inp] ∧ Has vs l.b [out]
/-- The variables of a residual block have the right shapes. -/
def ResBlock.Fits (vs : VarStore F) (r : ResBlock) (f : Nat) : Prop :=
  r.conv1.Fits vs f f ∧ r.conv2.Fits vs f f ∧ r.bn1.Fits vs f ∧ r.bn2.Fits vs f
/-- The variables of a network have the right shapes. -/
structure ResNet.Fits (vs : VarStore F) (net : ResNet) (z : Sizes) : Prop where
  conv : net.conv.Fits vs z.channels z.filters
  bn : net.bn.Fits vs z.filters
  res : ∀ r ∈ net.res, r.Fits vs z.filters
  pConv : net.pConv.Fits vs z.filters 32
  pBn : net.pBn.Fits vs 32
  pLin : net.pLin.Fits vs (32 * z.convOut) z.actions
  vConv : net.vConv.Fits vs z.filters 3
  vBn : net.vBn.Fits vs 3
  vLin : net.vLin.Fits vs (3 * z.convOut) 1

/-- All shapes are kept. -/
def Keeps (a b : VarStore F) : Prop := ∀ n sh, Has a n sh → Has b n sh

theorem Grows.keeps {a b : VarStore F} (h : Grows a b) : Keeps a b := fun _ _ => h.has

theorem Conv.Fits.mono {a b : VarStore F} (h : Keeps a b) {c : Conv} {i o : Nat} (hc : c.Fits a i o) : c.Fits b i o :=
  ⟨h _ _ hc.1, h _ _ hc.2⟩
theorem Norm.Fits.mono {a b : VarStore F} (h : Keeps a b) {c : Norm} {o : Nat} (hc : c.Fits a o) : c.Fits b o :=
  ⟨h _ _ hc.1, h _ _ hc.2.1, h _ _ hc.2.2.1, h _ _ hc.2.2.2⟩
theorem Linear.Fits.mono {a b : VarStore F} (h : Keeps a b) {c : Linear} {i o : Nat} (hc : c.Fits a i o) : c.Fits b i o :=
  ⟨h _ _ hc.1, h _ _ hc.2⟩
theorem ResBlock.Fits.mono {a b : VarStore F} (h : Keeps a b) {c : ResBlock} {f : Nat} (hc : c.Fits a f) : c.Fits b f :=
  ⟨hc.1.mono h, hc.2.1.mono h, hc.2.2.1.mono h, hc.2.2.2.mono h⟩
theorem ResNet.Fits.mono {a b : VarStore F} (h : Keeps a b) {c : ResNet} {z : Sizes} (hc : c.Fits a z) : c.Fits b z :=
  ⟨hc.conv.mono h, hc.bn.mono h, fun r hr => (hc.res r hr).mono h, hc.pConv.mono h, hc.pBn.mono h, hc.pLin.mono h,
    hc.vConv.mono h, hc.vBn.mono h, hc.vLin.mono h⟩

section New
variable (init : Nat → List Nat → F)

theorem weight_mem : weight ∈ bases := by simp [bases]
theorem bias_mem : bias ∈ bases := by simp [bases]
theorem mean_mem : runningMean ∈ bases := by simp [bases]
theorem var_mem : runningVar ∈ bases := by simp [bases]

theorem Conv.new_fits {vs : VarStore F} (hg : Good vs) (i o : Nat) :
    Grows vs (Conv.new init vs i o).2 ∧ (Conv.new init vs i o).1.Fits (Conv.new init vs i o).2 i o := by
  obtain ⟨g1, h1⟩ := grows_var hg bias_mem init [o]
  obtain ⟨g2, h2⟩ := grows_var g1.good weight_mem init [o, i, 3, 3]
  exact ⟨g1.trans g2, h2, g2.has h1⟩

theorem Norm.new_fits {vs : VarStore F} (hg : Good vs) (o : Nat) :
    Grows vs (Norm.new init vs o).2 ∧ (Norm.new init vs o).1.Fits (Norm.new init vs o).2 o := by
  obtain ⟨g1, h1⟩ := grows_var hg weight_mem init [o]
  obtain ⟨g2, h2⟩ := grows_var g1.good bias_mem init [o]
  obtain ⟨g3, h3⟩ := grows_var g2.good mean_mem init [o]
  obtain ⟨g4, h4⟩ := grows_var g3.good var_mem init [o]
  exact ⟨g1.trans (g2.trans (g3.trans g4)), g4.has h3, h4, g4.has (g3.has (g2.has h1)), g4.has (g3.has h2)⟩

theorem Linear.new_fits {vs : VarStore F} (hg : Good vs) (i o : Nat) :
    Grows vs (Linear.new init vs i o).2 ∧ (Linear.new init vs i o).1.Fits (Linear.new init vs i o).2 i o := by
  obtain ⟨g1, h1⟩ := grows_var hg bias_mem init [o]
  obtain ⟨g2, h2⟩ := grows_var g1.good weight_mem init [o, i]
  exact ⟨g1.trans g2, h2, g2.has h1⟩

theorem ResBlock.new_fits {vs : VarStore F} (hg : Good vs) (f : Nat) :
    Grows vs (ResBlock.new init vs f).2 ∧ (ResBlock.new init vs f).1.Fits (ResBlock.new init vs f).2 f := by
  obtain ⟨g1, h1⟩ := Conv.new_fits init hg f f
  obtain ⟨g2, h2⟩ := Conv.new_fits init g1.good f f
  obtain ⟨g3, h3⟩ := Norm.new_fits init g2.good f
  obtain ⟨g4, h4⟩ := Norm.new_fits init g3.good f
  exact ⟨g1.trans (g2.trans (g3.trans g4)), h1.mono (g2.trans (g3.trans g4)).keeps, h2.mono (g3.trans g4).keeps,
    h3.mono g4.keeps, h4⟩

theorem ResBlock.newAll_fits (f k : Nat) {vs : VarStore F} (hg : Good vs) :
    Grows vs (ResBlock.newAll init f k vs).2 ∧
      ∀ r ∈ (ResBlock.newAll init f k vs).1, r.Fits (ResBlock.newAll init f k vs).2 f := by
  induction k generalizing vs with
  | zero => exact ⟨⟨hg, fun _ _ h => h⟩, fun r hr => by cases hr⟩
  | succ k ih =>
    obtain ⟨g1, h1⟩ := ResBlock.new_fits init hg f
    obtain ⟨g2, h2⟩ := ih g1.good
    refine ⟨g1.trans g2, fun r hr => ?_⟩
    rcases List.mem_cons.1 hr with rfl | hr
    · exact h1.mono g2.keeps
    · exact h2 r hr

theorem ResBlock.newAll_length (f k : Nat) (vs : VarStore F) : (ResBlock.newAll init f k vs).1.length = k := by
  induction k generalizing vs with
  | zero => rfl
  | succ k ih => exact congrArg (· + 1) (ih _)

/-- A new network has all its variables, with the right shapes. -/
theorem ResNet.new_fits {vs : VarStore F} (hg : Good vs) (z : Sizes) :
    Grows vs (ResNet.new init z vs).2 ∧ (ResNet.new init z vs).1.Fits (ResNet.new init z vs).2 z := by
  obtain ⟨g1, h1⟩ := Conv.new_fits init hg z.channels z.filters
  obtain ⟨g2, h2⟩ := Norm.new_fits init g1.good z.filters
  obtain ⟨g3, h3⟩ := ResBlock.newAll_fits init z.filters z.blocks g2.good
  obtain ⟨g4, h4⟩ := Conv.new_fits init g3.good z.filters 32
  obtain ⟨g5, h5⟩ := Norm.new_fits init g4.good 32
  obtain ⟨g6, h6⟩ := Linear.new_fits init g5.good (32 * z.convOut) z.actions
  obtain ⟨g7, h7⟩ := Conv.new_fits init g6.good z.filters 3
  obtain ⟨g8, h8⟩ := Norm.new_fits init g7.good 3
  obtain ⟨g9, h9⟩ := Linear.new_fits init g8.good (3 * z.convOut) 1
  have k8 := g8.trans g9
  have k7 := g7.trans k8
  have k6 := g6.trans k7
  have k5 := g5.trans k6
  have k4 := g4.trans k5
  have k3 := g3.trans k4
  exact ⟨g1.trans (g2.trans k3), h1.mono (g2.trans k3).keeps, h2.mono k3.keeps, fun r hr => (h3 r hr).mono k4.keeps,
    h4.mono k5.keeps, h5.mono k6.keeps, h6.mono k7.keeps, h7.mono k8.keeps, h8.mono g9.keeps, h9⟩

end New

/-! ## Independence of the values -/

/-- The names and shapes of a store. -/
def layout (vs : VarStore F) : List (Name × List Nat) := vs.named.map fun e => (e.1, e.2.shape)

/-- Two results of a construction: same layers, same layout. -/
def Alike {α : Type} (p q : α × VarStore F) : Prop := p.1 = q.1 ∧ layout p.2 = layout q.2

theorem names_of_layout {a b : VarStore F} (h : layout a = layout b) : a.names = b.names := by
  have := congrArg (List.map Prod.fst) h
  simpa [layout, VarStore.names, List.map_map, Function.comp_def] using this

theorem insertVar_layout {a b : List (Name × Tensor F)}
    (h : a.map (fun e => (e.1, e.2.shape)) = b.map (fun e => (e.1, e.2.shape))) (n : Name) {x y : Tensor F}
    (hxy : x.shape = y.shape) :
    (insertVar a n x).map (fun e => (e.1, e.2.shape)) = (insertVar b n y).map (fun e => (e.1, e.2.shape)) := by
  have hn : a.map Prod.fst = b.map Prod.fst := by
    have := congrArg (List.map Prod.fst) h
    simpa [List.map_map, Function.comp_def] using this
  unfold insertVar
  rw [hn]
  split
  · have key : ∀ (l : List (Name × Tensor F)) (x : Tensor F), ((l.map fun e => if e.1 = n then (n, x) else e).map
        fun e => (e.1, e.2.shape)) =
        (l.map fun e => (e.1, e.2.shape)).map fun e => if e.1 = n then (n, x.shape) else e := by
      intro l x
      rw [List.map_map, List.map_map]
      apply List.map_congr_left
      intro e _
      by_cases he : e.1 = n <;> simp [he]
    rw [key, key, h, hxy]
  · simp [h, hxy]

theorem var_alike {a b : VarStore F} (h : layout a = layout b) (i j : Nat → List Nat → F) (n : Name) (sh : List Nat) :
    Alike (a.var i n sh) (b.var j n sh) := by
  have hn := names_of_layout h
  have hl : a.named.length = b.named.length := by rw [← length_names, ← length_names, hn]
  have hf : a.fresh n = b.fresh n := by unfold VarStore.fresh; rw [hn, hl]
  refine ⟨hf, ?_⟩
  show (insertVar a.named (a.fresh n) _).map _ = (insertVar b.named (b.fresh n) _).map _
  rw [hf]
  exact insertVar_layout h _ rfl

section Alike
variable (i j : Nat → List Nat → F)

theorem Conv.new_alike {a b : VarStore F} (h : layout a = layout b) (p o : Nat) :
    Alike (Conv.new i a p o) (Conv.new j b p o) := by
  have h1 := var_alike h i j bias [o]
  have h2 := var_alike h1.2 i j weight [o, p, 3, 3]
  refine ⟨?_, h2.2⟩
  show Conv.mk _ _ = Conv.mk _ _
  rw [h2.1, h1.1]

theorem Norm.new_alike {a b : VarStore F} (h : layout a = layout b) (o : Nat) :
    Alike (Norm.new i a o) (Norm.new j b o) := by
  have h1 := var_alike h i j weight [o]
  have h2 := var_alike h1.2 i j bias [o]
  have h3 := var_alike h2.2 i j runningMean [o]
  have h4 := var_alike h3.2 i j runningVar [o]
  refine ⟨?_, h4.2⟩
  show Norm.mk _ _ _ _ = Norm.mk _ _ _ _
  rw [h4.1, h3.1, h2.1, h1.1]

theorem Linear.new_alike {a b : VarStore F} (h : layout a = layout b) (p o : Nat) :
    Alike (Linear.new i a p o) (Linear.new j b p o) := by
  have h1 := var_alike h i j bias [o]
  have h2 := var_alike h1.2 i j weight [o, p]
  refine ⟨?_, h2.2⟩
  show Linear.mk _ _ = Linear.mk _ _
  rw [h2.1, h1.1]

theorem ResBlock.new_alike {a b : VarStore F} (h : layout a = layout b) (f : Nat) :
    Alike (ResBlock.new i a f) (ResBlock.new j b f) := by
  have h1 := Conv.new_alike i j h f f
  have h2 := Conv.new_alike i j h1.2 f f
  have h3 := Norm.new_alike i j h2.2 f
  have h4 := Norm.new_alike i j h3.2 f
  refine ⟨?_, h4.2⟩
  show ResBlock.mk _ _ _ _ = ResBlock.mk _ _ _ _
  rw [h4.1, h3.1, h2.1, h1.1]

theorem ResBlock.newAll_alike (f k : Nat) {a b : VarStore F} (h : layout a = layout b) :
    Alike (ResBlock.newAll i f k a) (ResBlock.newAll j f k b) := by
  induction k generalizing a b with
  | zero => exact ⟨rfl, h⟩
  | succ k ih =>
    have h1 := ResBlock.new_alike i j h f
    have h2 := ih h1.2
    refine ⟨?_, h2.2⟩
    show _ :: _ = _ :: _
    rw [h2.1, h1.1]

/-- The layers and the layout do not depend on the initial values. -/
theorem ResNet.new_alike (z : Sizes) {a b : VarStore F} (h : layout a = layout b) :
    Alike (ResNet.new i z a) (ResNet.new j z b) := by
  have h1 := Conv.new_alike i j h z.channels z.filters
  have h2 := Norm.new_alike i j h1.2 z.filters
  have h3 := ResBlock.newAll_alike i j z.filters z.blocks h2.2
  have h4 := Conv.new_alike i j h3.2 z.filters 32
  have h5 := Norm.new_alike i j h4.2 32
  have h6 := Linear.new_alike i j h5.2 (32 * z.convOut) z.actions
  have h7 := Conv.new_alike i j h6.2 z.filters 3
  have h8 := Norm.new_alike i j h7.2 3
  have h9 := Linear.new_alike i j h8.2 (3 * z.convOut) 1
  refine ⟨?_, h9.2⟩
  show ResNet.mk _ _ _ _ _ _ _ _ _ = ResNet.mk _ _ _ _ _ _ _ _ _
  rw [h9.1, h8.1, h7.1, h6.1, h5.1, h4.1, h3.1, h2.1, h1.1]

end Alike

/-! ## Loading -/

theorem broadcastable_refl (l : List Nat) : broadcastable l l = true := by
  induction l with
  | nil => rfl
  | cons a l ih => simp [broadcastable, ih]

theorem copyInto_shape {dst src y : Tensor F} (h : copyInto dst src = .ok y) : y.shape = dst.shape := by
  unfold copyInto at h
  split at h
  · rw [← Except.ok.inj h]
  · cases h

theorem zip_inShape {sh idx : List Nat} (h : Tensor.InShape sh idx) :
    List.zipWith (fun s i => if s = 1 then 0 else i) sh idx = idx := by
  induction sh generalizing idx with
  | nil => cases idx with
    | nil => rfl
    | cons => exact h.elim
  | cons n sh ih => cases idx with
    | nil => exact h.elim
    | cons i idx =>
      rw [List.zipWith_cons_cons, ih h.2]
      congr 1
      split
      · have := h.1
        omega
      · rfl

theorem copyInto_same {dst src : Tensor F} (h : dst.shape = src.shape) :
    ∃ y, copyInto dst src = .ok y ∧ Tensor.Same y src := by
  unfold copyInto
  rw [h, broadcastable_refl, if_pos rfl]
  refine ⟨_, rfl, rfl, fun idx hi => ?_⟩
  show src.at' _ = _
  rw [Nat.sub_self, List.drop_zero, zip_inShape hi]

theorem loadVars_layout {file : ModelFile F} {l r : List (Name × Tensor F)} (h : loadVars file l = .ok r) :
    r.map (fun e => (e.1, e.2.shape)) = l.map fun e => (e.1, e.2.shape) := by
  induction l generalizing r with
  | nil => cases h; rfl
  | cons e l ih =>
    obtain ⟨n, x⟩ := e
    unfold loadVars at h
    obtain ⟨y, h1, h2⟩ := res_bind.1 h
    obtain ⟨ys, h3, h4⟩ := res_bind.1 h2
    cases h4
    rw [List.map_cons, List.map_cons, ih h3]
    split at h1
    · rw [copyInto_shape h1]
    · cases h1

theorem load_layout {file : ModelFile F} {vs vs' : VarStore F} (h : vs.load file = .ok vs') : layout vs' = layout vs := by
  obtain ⟨l, h1, h2⟩ := res_bind.1 h
  cases h2
  exact loadVars_layout h1

theorem keeps_of_layout {a b : VarStore F} (h : layout a = layout b) : Keeps a b := by
  obtain ⟨l⟩ := a
  obtain ⟨r⟩ := b
  intro n sh ⟨x, h1, h2⟩
  unfold layout at h
  unfold VarStore.get at h1
  unfold Has VarStore.get
  simp only at *
  induction l generalizing r with
  | nil => cases h1
  | cons e l ih => cases r with
    | nil => cases h
    | cons e' r =>
      obtain ⟨k, y⟩ := e
      obtain ⟨k', y'⟩ := e'
      simp only [List.map_cons, List.cons.injEq, Prod.mk.injEq] at h
      obtain ⟨⟨rfl, hs⟩, hr⟩ := h
      rw [List.lookup_cons] at h1 ⊢
      split at h1
      · cases h1
        exact ⟨y', rfl, hs.symm.trans h2⟩
      · exact ih r hr h1

theorem lookup_of_mem {l : List (Name × Tensor F)} (hd : (l.map Prod.fst).Nodup) {n : Name} {x : Tensor F}
    (h : (n, x) ∈ l) : l.lookup n = some x := by
  induction l with
  | nil => cases h
  | cons e l ih =>
    obtain ⟨k, y⟩ := e
    rw [List.map_cons, List.nodup_cons] at hd
    rw [List.lookup_cons]
    rcases List.mem_cons.1 h with h | h
    · obtain ⟨rfl, rfl⟩ := Prod.mk.inj h
      simp
    · have : (n == k) = false := by
        simp only [beq_eq_false_iff_ne, ne_eq]
        intro e
        exact hd.1 (List.mem_map.2 ⟨(n, x), h, e⟩)
      rw [this]
      exact ih hd.2 h

/-- Two stores with the same variables. -/
def SameVars (a b : VarStore F) : Prop := List.Forall₂ (fun e e' => e.1 = e'.1 ∧ Tensor.Same e.2 e'.2) a.named b.named

theorem loadVars_same {file : ModelFile F} (hd : (file.map Prod.fst).Nodup) {l r : List (Name × Tensor F)}
    (hl : l.map (fun e => (e.1, e.2.shape)) = r.map fun e => (e.1, e.2.shape)) (hf : ∀ e ∈ r, e ∈ file) :
    ∃ l', loadVars file l = .ok l' ∧ List.Forall₂ (fun e e' => e.1 = e'.1 ∧ Tensor.Same e.2 e'.2) l' r := by
  induction l generalizing r with
  | nil => cases r with
    | nil => exact ⟨[], rfl, .nil⟩
    | cons => cases hl
  | cons e l ih => cases r with
    | nil => cases hl
    | cons e' r =>
      obtain ⟨n, x⟩ := e
      obtain ⟨n', x'⟩ := e'
      simp only [List.map_cons, List.cons.injEq, Prod.mk.injEq] at hl
      obtain ⟨⟨rfl, hs⟩, hr⟩ := hl
      obtain ⟨l', h1, h2⟩ := ih hr fun e he => hf e (List.mem_cons_of_mem _ he)
      obtain ⟨y, h3, h4⟩ := copyInto_same hs
      refine ⟨(n, y) :: l', ?_, .cons ⟨rfl, h4⟩ h2⟩
      unfold loadVars
      rw [lookup_of_mem hd (hf _ (List.mem_cons_self ..))]
      simp only
      rw [h3, h1]
      rfl

/-- Loading the variables saved from a store of the same layout, in whatever order they are in the file. -/
theorem load_same {a b : VarStore F} (hl : layout a = layout b) (hd : b.names.Nodup) {file : ModelFile F}
    (hf : file.Perm b.save) : ∃ vs, a.load file = .ok vs ∧ SameVars vs b := by
  have hd' : (file.map Prod.fst).Nodup := (hf.map Prod.fst).nodup_iff.2 hd
  obtain ⟨l, h1, h2⟩ := loadVars_same hd' hl fun e he => hf.mem_iff.2 he
  refine ⟨⟨l⟩, ?_, h2⟩
  unfold VarStore.load
  rw [h1]
  rfl

theorem SameVars.get {a b : VarStore F} (h : SameVars a b) (n : Name) :
    (a.get n = none ∧ b.get n = none) ∨ ∃ x y, a.get n = some x ∧ b.get n = some y ∧ Tensor.Same x y := by
  obtain ⟨l⟩ := a
  obtain ⟨r⟩ := b
  unfold SameVars at h
  unfold VarStore.get
  simp only at *
  induction h with
  | nil => exact .inl ⟨rfl, rfl⟩
  | cons he _ ih =>
    rename_i e e' l r _
    obtain ⟨k, x⟩ := e
    obtain ⟨k', y⟩ := e'
    obtain ⟨hk, hs⟩ := he
    simp only at hk hs
    subst hk
    rw [List.lookup_cons, List.lookup_cons]
    cases n == k with
    | true => exact .inr ⟨x, y, rfl, rfl, hs⟩
    | false => exact ih

end DieE.Net
