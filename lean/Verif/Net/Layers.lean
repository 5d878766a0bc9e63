import Verif.Net.Vars
import Verif.TensorFacts

/-! # Facts about the layers: shapes, and dependence on single rows of a batch -/

namespace DieE.Net
open DieE.Train (Name)
open DieE.Props.V (res_bind)
open DieE.Tensor (InShape Same)

variable {A : Arith}

/-! ## Shapes -/

theorem value_ok {F : Type} {vs : VarStore F} {n : Name} {sh : List Nat} (h : Has vs n sh) :
    ∃ x, value vs n = .ok x ∧ x.shape = sh := by
  obtain ⟨x, h1, h2⟩ := h
  refine ⟨x, ?_, h2⟩
  unfold value
  rw [h1]

theorem Conv.apply_ok {vs : VarStore A.F} {c : Conv} {i o n h w : Nat} (hc : c.Fits vs i o) {x : Tensor A.F}
    (hx : x.shape = [n, i, h, w]) (hh : 0 < h) (hw : 0 < w) : ∃ y, c.apply A vs x = .ok y ∧ y.shape = [n, o, h, w] := by
  obtain ⟨u, h1, h2⟩ := value_ok hc.1
  obtain ⟨b, h3, h4⟩ := value_ok hc.2
  unfold Conv.apply
  rw [h1]
  show ∃ y, (value vs c.b >>= fun b => conv2d A 1 u b x) = _ ∧ _
  rw [h3]
  show ∃ y, conv2d A 1 u b x = _ ∧ _
  unfold conv2d
  rw [hx, h2, h4]
  simp only
  rw [if_pos (by simp; omega)]
  refine ⟨_, rfl, ?_⟩
  show [n, o, _, _] = _
  rw [show h + 2 * 1 - 3 + 1 = h by omega, show w + 2 * 1 - 3 + 1 = w by omega]

theorem Norm.apply_ok {vs : VarStore A.F} {train : Bool} {l : Norm} {o n h w : Nat} (hc : l.Fits vs o) {x : Tensor A.F}
    (hx : x.shape = [n, o, h, w]) (ht : train = true → 2 ≤ n * h * w) :
    ∃ y, l.apply A vs train x = .ok y ∧ y.shape = [n, o, h, w] := by
  obtain ⟨m, h1, h2⟩ := value_ok hc.1
  obtain ⟨v, h3, h4⟩ := value_ok hc.2.1
  obtain ⟨u, h5, h6⟩ := value_ok hc.2.2.1
  obtain ⟨b, h7, h8⟩ := value_ok hc.2.2.2
  unfold Norm.apply
  rw [h1, h3, h5, h7]
  show ∃ y, batchNorm A train m v u b x = _ ∧ _
  unfold batchNorm
  rw [hx]
  simp only
  rw [if_pos ⟨h2, h4, h6, h8, ht⟩]
  exact ⟨_, rfl, rfl⟩

theorem Linear.apply_ok {vs : VarStore A.F} {l : Linear} {i o n : Nat} (hc : l.Fits vs i o) {x : Tensor A.F}
    (hx : x.shape = [n, i]) : ∃ y, l.apply A vs x = .ok y ∧ y.shape = [n, o] := by
  obtain ⟨u, h1, h2⟩ := value_ok hc.1
  obtain ⟨b, h3, h4⟩ := value_ok hc.2
  unfold Linear.apply
  rw [h1, h3]
  show ∃ y, linear A u b x = _ ∧ _
  unfold linear
  rw [hx, h2, h4]
  simp only
  rw [if_pos (by simp)]
  exact ⟨_, rfl, rfl⟩

theorem flatten1_ok {F : Type} {x : Tensor F} {n c h w : Nat} (hx : x.shape = [n, c, h, w]) :
    ∃ y, flatten1 x = .ok y ∧ y.shape = [n, c * (h * w)] := by
  unfold flatten1
  rw [hx]
  refine ⟨_, rfl, ?_⟩
  show [n, c * (h * (w * 1))] = _
  rw [Nat.mul_one]

theorem addT_ok {x y : Tensor A.F} (h : x.shape = y.shape) : ∃ z, addT A x y = .ok z ∧ z.shape = x.shape := by
  unfold addT
  rw [if_pos h]
  exact ⟨_, rfl, rfl⟩

theorem softmax_ok {x : Tensor A.F} {n m : Nat} (h : x.shape = [n, m]) : ∃ y, softmax x = .ok y ∧ y.shape = [n, m] := by
  unfold softmax
  rw [h]
  exact ⟨_, rfl, rfl⟩

theorem ResBlock.apply_ok {vs : VarStore A.F} {train : Bool} {r : ResBlock} {f n h w : Nat} (hr : r.Fits vs f)
    {x : Tensor A.F} (hx : x.shape = [n, f, h, w]) (hh : 0 < h) (hw : 0 < w) (ht : train = true → 2 ≤ n * h * w) :
    ∃ y, r.apply A vs train x = .ok y ∧ y.shape = [n, f, h, w] := by
  obtain ⟨y1, e1, s1⟩ := Conv.apply_ok hr.1 hx hh hw
  obtain ⟨y2, e2, s2⟩ := Norm.apply_ok hr.2.2.1 s1 ht
  obtain ⟨y3, e3, s3⟩ := Conv.apply_ok (x := mapT A.relu y2) hr.2.1 s2 hh hw
  obtain ⟨y4, e4, s4⟩ := Norm.apply_ok hr.2.2.2 s3 ht
  obtain ⟨y5, e5, s5⟩ := addT_ok (s4.trans hx.symm)
  refine ⟨mapT A.relu y5, ?_, s5.trans s4⟩
  exact res_bind.2 ⟨y1, e1, res_bind.2 ⟨y2, e2, res_bind.2 ⟨y3, e3, res_bind.2 ⟨y4, e4, res_bind.2 ⟨y5, e5, rfl⟩⟩⟩⟩⟩

theorem blocks_ok {vs : VarStore A.F} {train : Bool} {f n h w : Nat} (rs : List ResBlock)
    (hr : ∀ r ∈ rs, r.Fits vs f) {x : Tensor A.F} (hx : x.shape = [n, f, h, w]) (hh : 0 < h) (hw : 0 < w)
    (ht : train = true → 2 ≤ n * h * w) :
    ∃ y, rs.foldlM (fun y r => r.apply A vs train y) x = .ok y ∧ y.shape = [n, f, h, w] := by
  induction rs generalizing x with
  | nil => exact ⟨x, rfl, hx⟩
  | cons r rs ih =>
    obtain ⟨y, e, s⟩ := ResBlock.apply_ok (train := train) (hr r (List.mem_cons_self ..)) hx hh hw ht
    obtain ⟨z, e', s'⟩ := ih (fun r h => hr r (List.mem_cons_of_mem _ h)) s
    refine ⟨z, ?_, s'⟩
    rw [List.foldlM_cons]
    exact res_bind.2 ⟨y, e, e'⟩

section Net
variable {vs : VarStore A.F} {train : Bool} {net : ResNet} {z : Sizes} (hf : net.Fits vs z) {n h w : Nat} (hh : 0 < h)
  (hw : 0 < w) (ht : train = true → 2 ≤ n * h * w)
include hf hh hw ht

theorem ResNet.trunk_ok {x : Tensor A.F} (hx : x.shape = [n, z.channels, h, w]) :
    ∃ y, net.trunk A vs train x = .ok y ∧ y.shape = [n, z.filters, h, w] := by
  obtain ⟨y1, e1, s1⟩ := Conv.apply_ok hf.conv hx hh hw
  obtain ⟨y2, e2, s2⟩ := Norm.apply_ok hf.bn s1 ht
  obtain ⟨y3, e3, s3⟩ := blocks_ok (train := train) net.res hf.res (x := mapT A.relu y2) s2 hh hw ht
  exact ⟨y3, res_bind.2 ⟨y1, e1, res_bind.2 ⟨y2, e2, e3⟩⟩, s3⟩

theorem ResNet.policyHead_ok (hz : h * w = z.convOut) {x : Tensor A.F} (hx : x.shape = [n, z.filters, h, w]) :
    ∃ y, net.policyHead A vs train x = .ok y ∧ y.shape = [n, z.actions] := by
  obtain ⟨y1, e1, s1⟩ := Conv.apply_ok hf.pConv hx hh hw
  obtain ⟨y2, e2, s2⟩ := Norm.apply_ok hf.pBn s1 ht
  obtain ⟨y3, e3, s3⟩ := flatten1_ok (x := mapT A.relu y2) s2
  rw [hz] at s3
  obtain ⟨y4, e4, s4⟩ := Linear.apply_ok hf.pLin s3
  exact ⟨y4, res_bind.2 ⟨y1, e1, res_bind.2 ⟨y2, e2, res_bind.2 ⟨y3, e3, e4⟩⟩⟩, s4⟩

theorem ResNet.valueHead_ok (hz : h * w = z.convOut) {x : Tensor A.F} (hx : x.shape = [n, z.filters, h, w]) :
    ∃ y, net.valueHead A vs train x = .ok y ∧ y.shape = [n, 1] := by
  obtain ⟨y1, e1, s1⟩ := Conv.apply_ok hf.vConv hx hh hw
  obtain ⟨y2, e2, s2⟩ := Norm.apply_ok hf.vBn s1 ht
  obtain ⟨y3, e3, s3⟩ := flatten1_ok (x := mapT A.relu y2) s2
  rw [hz] at s3
  obtain ⟨y4, e4, s4⟩ := Linear.apply_ok hf.vLin s3
  exact ⟨mapT A.tanh y4, res_bind.2 ⟨y1, e1, res_bind.2 ⟨y2, e2, res_bind.2 ⟨y3, e3, res_bind.2 ⟨y4, e4, rfl⟩⟩⟩⟩, s4⟩

/-- The three ways to evaluate a network: no error, and the shapes of the results. -/
theorem ResNet.forward_ok (hz : h * w = z.convOut) {x : Tensor A.F} (hx : x.shape = [n, z.channels, h, w]) :
    (∃ p v, net.forward A vs train x = .ok (p, v) ∧ p.shape = [n, z.actions] ∧ v.shape = [n, 1] ∧
      net.forwardPolicy A vs train x = .ok p) ∧
    (∃ p v, net.forwardTrain A vs train x = .ok (p, v) ∧ p.shape = [n, z.actions] ∧ v.shape = [n, 1]) := by
  obtain ⟨y, e, s⟩ := ResNet.trunk_ok hf hh hw ht hx
  obtain ⟨p, e1, s1⟩ := ResNet.policyHead_ok hf hh hw ht hz s
  obtain ⟨q, e2, s2⟩ := softmax_ok s1
  obtain ⟨v, e3, s3⟩ := ResNet.valueHead_ok hf hh hw ht hz s
  exact ⟨⟨q, v, res_bind.2 ⟨y, e, res_bind.2 ⟨p, e1, res_bind.2 ⟨q, e2, res_bind.2 ⟨v, e3, rfl⟩⟩⟩⟩, s2, s3,
      res_bind.2 ⟨y, e, res_bind.2 ⟨p, e1, e2⟩⟩⟩,
    ⟨p, v, res_bind.2 ⟨y, e, res_bind.2 ⟨p, e1, res_bind.2 ⟨v, e3, rfl⟩⟩⟩, s1, s3⟩⟩

end Net

/-! ## Rows -/

/-- Row `j` of `x` is row `k` of `y`. -/
structure RowEq {F : Type} (j k : Nat) (x y : Tensor F) : Prop where
  left : ∃ n sh, x.shape = n :: sh ∧ j < n
  right : ∃ n, y.shape = n :: x.shape.tail ∧ k < n
  same : ∀ idx, InShape x.shape.tail idx → x.at' (j :: idx) = y.at' (k :: idx)

theorem RowEq.mk' {F : Type} {j k n m : Nat} {sh : List Nat} {x y : Tensor F} (hx : x.shape = n :: sh)
    (hy : y.shape = m :: sh) (hj : j < n) (hk : k < m) (h : ∀ idx, InShape sh idx → x.at' (j :: idx) = y.at' (k :: idx)) :
    RowEq j k x y :=
  ⟨⟨n, sh, hx, hj⟩, ⟨m, by rw [hx]; exact hy, hk⟩, fun idx hi => h idx (by rw [hx] at hi; exact hi)⟩

theorem RowEq.elim {F : Type} {j k : Nat} {x y : Tensor F} (h : RowEq j k x y) : ∃ n m sh, x.shape = n :: sh ∧
    y.shape = m :: sh ∧ j < n ∧ k < m ∧ ∀ idx, InShape sh idx → x.at' (j :: idx) = y.at' (k :: idx) := by
  obtain ⟨n, sh, h1, h2⟩ := h.left
  obtain ⟨m, h3, h4⟩ := h.right
  have h5 := h.same
  rw [h1] at h3 h5
  exact ⟨n, m, sh, h1, h3, h2, h4, h5⟩

theorem RowEq.map {F F' : Type} {j k : Nat} {x y : Tensor F} (h : RowEq j k x y) (f : F → F') :
    RowEq j k (mapT f x) (mapT f y) := by
  obtain ⟨n, m, sh, h1, h2, h3, h4, h5⟩ := h.elim
  exact .mk' h1 h2 h3 h4 fun idx hi => congrArg f (h5 idx hi)

theorem sum_congr (n : Nat) {f g : Nat → A.F} (h : ∀ i, i < n → f i = g i) : A.sum n f = A.sum n g := by
  unfold Arith.sum
  have : ∀ (l : List Nat) (acc : A.F), (∀ i ∈ l, f i = g i) →
      l.foldl (fun acc i => A.add acc (f i)) acc = l.foldl (fun acc i => A.add acc (g i)) acc := by
    intro l
    induction l with
    | nil => intros; rfl
    | cons a l ih =>
      intro acc hl
      rw [List.foldl_cons, List.foldl_cons, hl a (List.mem_cons_self ..)]
      exact ih _ fun i hi => hl i (List.mem_cons_of_mem _ hi)
  exact this _ _ fun i hi => h i (List.mem_range.1 hi)

theorem inShape1 {a : Nat} {idx : List Nat} (h : InShape [a] idx) : ∃ i, idx = [i] ∧ i < a := by
  match idx, h with
  | [i], h => exact ⟨i, rfl, h.1⟩

theorem inShape3 {a b c : Nat} {idx : List Nat} (h : InShape [a, b, c] idx) :
    ∃ i j k, idx = [i, j, k] ∧ i < a ∧ j < b ∧ k < c := by
  match idx, h with
  | [i, j, k], h => exact ⟨i, j, k, rfl, h.1, h.2.1, h.2.2.1⟩

theorem conv2d_row {j k pad : Nat} {w w' b b' x x' y y' : Tensor A.F} (hw : Same w w') (hb : Same b b')
    (hx : RowEq j k x x') (h : conv2d A pad w b x = .ok y) (h' : conv2d A pad w' b' x' = .ok y') : RowEq j k y y' := by
  obtain ⟨n, m, sh, h1, h2, h3, h4, h5⟩ := hx.elim
  unfold conv2d at h
  split at h
  case h_2 => cases h
  rename_i n0 c hh wd o i kh kw o' e1 e2 e3
  rw [h1] at e1
  obtain ⟨rfl, rfl⟩ := List.cons.inj e1
  unfold conv2d at h'
  rw [h2, ← hw.1, ← hb.1, e2, e3] at h'
  simp only at h h'
  split at h
  case isFalse => cases h
  rename_i hcond
  rw [if_pos hcond] at h'
  cases h
  cases h'
  obtain ⟨rfl, rfl, hkh, hkw⟩ := hcond
  refine .mk' rfl rfl h3 h4 fun idx hi => ?_
  obtain ⟨a, u, v, rfl, ha, hu, hv⟩ := inShape3 hi
  show A.add (A.sum c fun ci => A.sum kh fun p => A.sum kw fun q =>
      A.mul (w.at' [a, ci, p, q]) (padded A x pad hh wd j ci (u + p) (v + q))) (b.at' [a]) =
    A.add (A.sum c fun ci => A.sum kh fun p => A.sum kw fun q =>
      A.mul (w'.at' [a, ci, p, q]) (padded A x' pad hh wd k ci (u + p) (v + q))) (b'.at' [a])
  congr 1
  · refine sum_congr _ fun ci hci => sum_congr _ fun p hp => sum_congr _ fun q hq => ?_
    congr 1
    · exact hw.2 _ (by rw [e2]; exact ⟨ha, hci, hp, hq, trivial⟩)
    · unfold padded
      split
      · exact h5 _ ⟨hci, by omega, by omega, trivial⟩
      · rfl
  · exact hb.2 _ (by rw [e3]; exact ⟨ha, trivial⟩)

theorem batchNorm_row {j k : Nat} {m m' v v' w w' b b' x x' y y' : Tensor A.F} (hm : Same m m') (hv : Same v v')
    (hw : Same w w') (hb : Same b b') (hx : RowEq j k x x') (h : batchNorm A false m v w b x = .ok y)
    (h' : batchNorm A false m' v' w' b' x' = .ok y') : RowEq j k y y' := by
  obtain ⟨n, n', sh, h1, h2, h3, h4, h5⟩ := hx.elim
  unfold batchNorm at h
  split at h
  case h_2 => cases h
  rename_i n0 c hh wd e1
  rw [h1] at e1
  obtain ⟨rfl, rfl⟩ := List.cons.inj e1
  unfold batchNorm at h'
  rw [h2] at h'
  simp only at h h'
  split at h
  case isFalse => cases h
  rename_i hc
  split at h'
  case isFalse => cases h'
  cases h
  cases h'
  refine .mk' h1 rfl h3 h4 fun idx hi => ?_
  obtain ⟨a, u, z, rfl, ha, hu, hz⟩ := inShape3 hi
  show A.norm (x.at' [j, a, u, z]) (m.at' [a]) (v.at' [a]) (w.at' [a]) (b.at' [a]) =
    A.norm (x'.at' [k, a, u, z]) (m'.at' [a]) (v'.at' [a]) (w'.at' [a]) (b'.at' [a])
  have s : ∀ {t : Tensor A.F}, t.shape = [c] → InShape t.shape [a] := fun e => by rw [e]; exact ⟨ha, trivial⟩
  rw [h5 _ hi, hm.2 _ (s hc.1), hv.2 _ (s hc.2.1), hw.2 _ (s hc.2.2.1), hb.2 _ (s hc.2.2.2.1)]

theorem unflat_inShape (sh : List Nat) (k : Nat) (h : k < Tensor.numel sh) : InShape sh (Tensor.unflat sh k) := by
  induction sh generalizing k with
  | nil => trivial
  | cons n sh ih =>
    have h' : k < n * Tensor.numel sh := h
    have hp : 0 < Tensor.numel sh := by
      rcases Nat.eq_zero_or_pos (Tensor.numel sh) with e | e
      · rw [e] at h'; omega
      · exact e
    exact ⟨Nat.div_lt_of_lt_mul (by rw [Nat.mul_comm]; exact h'), ih _ (Nat.mod_lt _ hp)⟩

theorem flatten1_row {F : Type} {j k : Nat} {x x' y y' : Tensor F} (hx : RowEq j k x x') (h : flatten1 x = .ok y)
    (h' : flatten1 x' = .ok y') : RowEq j k y y' := by
  obtain ⟨n, n', sh, h1, h2, h3, h4, h5⟩ := hx.elim
  unfold flatten1 at h
  split at h
  case h_2 => cases h
  rename_i n0 s sh' e1
  rw [h1] at e1
  obtain ⟨rfl, rfl⟩ := List.cons.inj e1
  unfold flatten1 at h'
  rw [h2] at h'
  cases h
  cases h'
  refine .mk' rfl rfl h3 h4 fun idx hi => ?_
  obtain ⟨a, rfl, ha⟩ := inShape1 hi
  exact h5 _ (unflat_inShape _ _ ha)

theorem linear_row {j k : Nat} {w w' b b' x x' y y' : Tensor A.F} (hw : Same w w') (hb : Same b b')
    (hx : RowEq j k x x') (h : linear A w b x = .ok y) (h' : linear A w' b' x' = .ok y') : RowEq j k y y' := by
  obtain ⟨n, m, sh, h1, h2, h3, h4, h5⟩ := hx.elim
  unfold linear at h
  split at h
  case h_2 => cases h
  rename_i n0 i o i' o' e1 e2 e3
  rw [h1] at e1
  obtain ⟨rfl, rfl⟩ := List.cons.inj e1
  unfold linear at h'
  rw [h2, ← hw.1, ← hb.1, e2, e3] at h'
  simp only at h h'
  split at h
  case isFalse => cases h
  rename_i hcond
  rw [if_pos hcond] at h'
  cases h
  cases h'
  obtain ⟨rfl, rfl⟩ := hcond
  refine .mk' rfl rfl h3 h4 fun idx hi => ?_
  obtain ⟨a, rfl, ha⟩ := inShape1 hi
  show A.add (A.sum i fun p => A.mul (x.at' [j, p]) (w.at' [a, p])) (b.at' [a]) =
    A.add (A.sum i fun p => A.mul (x'.at' [k, p]) (w'.at' [a, p])) (b'.at' [a])
  congr 1
  · refine sum_congr _ fun p hp => ?_
    rw [h5 [p] ⟨hp, trivial⟩, hw.2 [a, p] (by rw [e2]; exact ⟨ha, hp, trivial⟩)]
  · exact hb.2 _ (by rw [e3]; exact ⟨ha, trivial⟩)

theorem addT_row {j k : Nat} {x x' y y' z z' : Tensor A.F} (hx : RowEq j k x x') (hy : RowEq j k y y')
    (h : addT A x y = .ok z) (h' : addT A x' y' = .ok z') : RowEq j k z z' := by
  obtain ⟨n, m, sh, h1, h2, h3, h4, h5⟩ := hx.elim
  obtain ⟨n0, m0, sh0, g1, g2, g3, g4, g5⟩ := hy.elim
  unfold addT at h h'
  split at h
  case isFalse => cases h
  rename_i e
  split at h'
  case isFalse => cases h'
  cases h
  cases h'
  rw [h1, g1] at e
  obtain ⟨rfl, rfl⟩ := List.cons.inj e
  refine .mk' h1 h2 h3 h4 fun idx hi => ?_
  show A.add _ _ = A.add _ _
  rw [h5 _ hi, g5 _ hi]

theorem softmax_row {j k : Nat} {x x' y y' : Tensor A.F} (hx : RowEq j k x x') (h : softmax x = .ok y)
    (h' : softmax x' = .ok y') : RowEq j k y y' := by
  obtain ⟨n, m, sh, h1, h2, h3, h4, h5⟩ := hx.elim
  unfold softmax at h
  split at h
  case h_2 => cases h
  rename_i n0 c e1
  rw [h1] at e1
  obtain ⟨rfl, rfl⟩ := List.cons.inj e1
  unfold softmax at h'
  rw [h2] at h'
  cases h
  cases h'
  refine .mk' rfl rfl h3 h4 fun idx hi => ?_
  obtain ⟨a, rfl, ha⟩ := inShape1 hi
  show A.div (A.exp (x.at' [j, a])) (A.sum c fun p => A.exp (x.at' [j, p])) =
    A.div (A.exp (x'.at' [k, a])) (A.sum c fun p => A.exp (x'.at' [k, p]))
  rw [h5 _ hi]
  congr 1
  exact sum_congr _ fun p hp => by rw [h5 [p] ⟨hp, trivial⟩]

/-- Stores giving every variable the same value. -/
def Agree {F : Type} (vs vs' : VarStore F) : Prop :=
  ∀ n x x', value vs n = .ok x → value vs' n = .ok x' → Same x x'

theorem Agree.refl {F : Type} (vs : VarStore F) : Agree vs vs := by
  intro n x x' h h'
  rw [h] at h'
  cases h'
  exact .refl x

theorem SameVars.agree {F : Type} {a b : VarStore F} (h : SameVars a b) : Agree a b := by
  intro n x x' h1 h2
  unfold value at h1 h2
  rcases h.get n with ⟨e, -⟩ | ⟨y, y', e, e', hs⟩
  · rw [e] at h1; cases h1
  · rw [e] at h1
    rw [e'] at h2
    cases h1
    cases h2
    exact hs

section Rows
variable {vs vs' : VarStore A.F} (hv : Agree vs vs') {j k : Nat}
include hv

theorem Conv.apply_row {c : Conv} {x x' y y' : Tensor A.F} (hx : RowEq j k x x') (h : c.apply A vs x = .ok y)
    (h' : c.apply A vs' x' = .ok y') : RowEq j k y y' := by
  obtain ⟨w, h1, h⟩ := res_bind.1 h
  obtain ⟨b, h2, h⟩ := res_bind.1 h
  obtain ⟨w', h1', h'⟩ := res_bind.1 h'
  obtain ⟨b', h2', h'⟩ := res_bind.1 h'
  exact conv2d_row (hv _ _ _ h1 h1') (hv _ _ _ h2 h2') hx h h'

theorem Linear.apply_row {c : Linear} {x x' y y' : Tensor A.F} (hx : RowEq j k x x') (h : c.apply A vs x = .ok y)
    (h' : c.apply A vs' x' = .ok y') : RowEq j k y y' := by
  obtain ⟨w, h1, h⟩ := res_bind.1 h
  obtain ⟨b, h2, h⟩ := res_bind.1 h
  obtain ⟨w', h1', h'⟩ := res_bind.1 h'
  obtain ⟨b', h2', h'⟩ := res_bind.1 h'
  exact linear_row (hv _ _ _ h1 h1') (hv _ _ _ h2 h2') hx h h'

theorem Norm.apply_row {c : Norm} {x x' y y' : Tensor A.F} (hx : RowEq j k x x') (h : c.apply A vs false x = .ok y)
    (h' : c.apply A vs' false x' = .ok y') : RowEq j k y y' := by
  obtain ⟨m, h1, h⟩ := res_bind.1 h
  obtain ⟨v, h2, h⟩ := res_bind.1 h
  obtain ⟨w, h3, h⟩ := res_bind.1 h
  obtain ⟨b, h4, h⟩ := res_bind.1 h
  obtain ⟨m', h1', h'⟩ := res_bind.1 h'
  obtain ⟨v', h2', h'⟩ := res_bind.1 h'
  obtain ⟨w', h3', h'⟩ := res_bind.1 h'
  obtain ⟨b', h4', h'⟩ := res_bind.1 h'
  exact batchNorm_row (hv _ _ _ h1 h1') (hv _ _ _ h2 h2') (hv _ _ _ h3 h3') (hv _ _ _ h4 h4') hx h h'

theorem ResBlock.apply_row {r : ResBlock} {x x' y y' : Tensor A.F} (hx : RowEq j k x x')
    (h : r.apply A vs false x = .ok y) (h' : r.apply A vs' false x' = .ok y') : RowEq j k y y' := by
  obtain ⟨y1, e1, h⟩ := res_bind.1 h
  obtain ⟨y2, e2, h⟩ := res_bind.1 h
  obtain ⟨y3, e3, h⟩ := res_bind.1 h
  obtain ⟨y4, e4, h⟩ := res_bind.1 h
  obtain ⟨y5, e5, h⟩ := res_bind.1 h
  obtain ⟨z1, f1, h'⟩ := res_bind.1 h'
  obtain ⟨z2, f2, h'⟩ := res_bind.1 h'
  obtain ⟨z3, f3, h'⟩ := res_bind.1 h'
  obtain ⟨z4, f4, h'⟩ := res_bind.1 h'
  obtain ⟨z5, f5, h'⟩ := res_bind.1 h'
  cases h
  cases h'
  have r1 := Conv.apply_row hv hx e1 f1
  have r2 := (Norm.apply_row hv r1 e2 f2).map A.relu
  have r3 := Conv.apply_row hv r2 e3 f3
  have r4 := Norm.apply_row hv r3 e4 f4
  exact (addT_row r4 hx e5 f5).map A.relu

theorem blocks_row (rs : List ResBlock) {x x' y y' : Tensor A.F} (hx : RowEq j k x x')
    (h : rs.foldlM (fun y r => r.apply A vs false y) x = .ok y)
    (h' : rs.foldlM (fun y r => r.apply A vs' false y) x' = .ok y') : RowEq j k y y' := by
  induction rs generalizing x x' with
  | nil =>
    cases h
    cases h'
    exact hx
  | cons r rs ih =>
    rw [List.foldlM_cons] at h h'
    obtain ⟨z, e, h⟩ := res_bind.1 h
    obtain ⟨z', e', h'⟩ := res_bind.1 h'
    exact ih (ResBlock.apply_row hv hx e e') h h'

theorem ResNet.trunk_row {net : ResNet} {x x' y y' : Tensor A.F} (hx : RowEq j k x x')
    (h : net.trunk A vs false x = .ok y) (h' : net.trunk A vs' false x' = .ok y') : RowEq j k y y' := by
  obtain ⟨y1, e1, h⟩ := res_bind.1 h
  obtain ⟨y2, e2, h⟩ := res_bind.1 h
  obtain ⟨z1, f1, h'⟩ := res_bind.1 h'
  obtain ⟨z2, f2, h'⟩ := res_bind.1 h'
  exact blocks_row hv _ ((Norm.apply_row hv (Conv.apply_row hv hx e1 f1) e2 f2).map A.relu) h h'

theorem ResNet.policyHead_row {net : ResNet} {x x' y y' : Tensor A.F} (hx : RowEq j k x x')
    (h : net.policyHead A vs false x = .ok y) (h' : net.policyHead A vs' false x' = .ok y') : RowEq j k y y' := by
  obtain ⟨y1, e1, h⟩ := res_bind.1 h
  obtain ⟨y2, e2, h⟩ := res_bind.1 h
  obtain ⟨y3, e3, h⟩ := res_bind.1 h
  obtain ⟨z1, f1, h'⟩ := res_bind.1 h'
  obtain ⟨z2, f2, h'⟩ := res_bind.1 h'
  obtain ⟨z3, f3, h'⟩ := res_bind.1 h'
  exact Linear.apply_row hv
    (flatten1_row ((Norm.apply_row hv (Conv.apply_row hv hx e1 f1) e2 f2).map A.relu) e3 f3) h h'

theorem ResNet.valueHead_row {net : ResNet} {x x' y y' : Tensor A.F} (hx : RowEq j k x x')
    (h : net.valueHead A vs false x = .ok y) (h' : net.valueHead A vs' false x' = .ok y') : RowEq j k y y' := by
  obtain ⟨y1, e1, h⟩ := res_bind.1 h
  obtain ⟨y2, e2, h⟩ := res_bind.1 h
  obtain ⟨y3, e3, h⟩ := res_bind.1 h
  obtain ⟨y4, e4, h⟩ := res_bind.1 h
  obtain ⟨z1, f1, h'⟩ := res_bind.1 h'
  obtain ⟨z2, f2, h'⟩ := res_bind.1 h'
  obtain ⟨z3, f3, h'⟩ := res_bind.1 h'
  obtain ⟨z4, f4, h'⟩ := res_bind.1 h'
  cases h
  cases h'
  exact (Linear.apply_row hv
    (flatten1_row ((Norm.apply_row hv (Conv.apply_row hv hx e1 f1) e2 f2).map A.relu) e3 f3) e4 f4).map A.tanh

/-- Rows of the results in evaluation mode depend only on the same row of the input. -/
theorem ResNet.forward_row {net : ResNet} {x x' p p' v v' : Tensor A.F} (hx : RowEq j k x x')
    (h : net.forward A vs false x = .ok (p, v)) (h' : net.forward A vs' false x' = .ok (p', v')) :
    RowEq j k p p' ∧ RowEq j k v v' := by
  obtain ⟨y, e, h⟩ := res_bind.1 h
  obtain ⟨q, e1, h⟩ := res_bind.1 h
  obtain ⟨q2, e2, h⟩ := res_bind.1 h
  obtain ⟨u, e3, h⟩ := res_bind.1 h
  obtain ⟨y', f, h'⟩ := res_bind.1 h'
  obtain ⟨q', f1, h'⟩ := res_bind.1 h'
  obtain ⟨q2', f2, h'⟩ := res_bind.1 h'
  obtain ⟨u', f3, h'⟩ := res_bind.1 h'
  cases h
  cases h'
  have ht := ResNet.trunk_row hv hx e f
  exact ⟨softmax_row (ResNet.policyHead_row hv ht e1 f1) e2 f2, ResNet.valueHead_row hv ht e3 f3⟩

end Rows

theorem same_of_rows {F : Type} {x y : Tensor F} {n : Nat} {sh : List Nat} (h : x.shape = n :: sh) (h' : y.shape = n :: sh)
    (hr : ∀ j, j < n → RowEq j j x y) : Same x y := by
  refine ⟨h.trans h'.symm, fun idx hi => ?_⟩
  rw [h] at hi
  match idx, hi with
  | j :: idx, hi =>
    have := (hr j hi.1).same idx
    rw [h] at this
    exact this hi.2

theorem rows_of_same {F : Type} {x y : Tensor F} {n : Nat} {sh : List Nat} (h : x.shape = n :: sh) (hs : Same x y)
    {j : Nat} (hj : j < n) : RowEq j j x y :=
  .mk' h (hs.1 ▸ h) hj hj fun idx hi => hs.2 _ (by rw [h]; exact ⟨hj, hi⟩)

end DieE.Net
