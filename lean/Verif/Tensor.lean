import Verif.Prelude

/-!
# A small model of `tch::Tensor`

A tensor is a shape and a function from multi-indices to entries (only indices inside the shape matter; `Same` is the
equality of tensors).  Element types, devices and gradient tracking are not modelled; `to_device`, `to_dtype` and
`shallow_clone` are the identity.  Operations that libtorch rejects return `Panic.tensorError` (the `tch` wrappers
without the `f_` prefix unwrap the error).
-/

namespace DieE

/-- A tensor: shape and entries. -/
structure Tensor (α : Type) where
  /-- sizes of the dimensions -/
  shape : List Nat
  /-- entry at a multi-index -/
  at' : List Nat → α

namespace Tensor
variable {α : Type}

/-- `idx` is an index into a tensor of shape `sh`. -/
def InShape : List Nat → List Nat → Prop
  | [], [] => True
  | n :: sh, i :: idx => i < n ∧ InShape sh idx
  | _, _ => False

instance decInShape : ∀ sh idx, Decidable (InShape sh idx)
  | [], [] => .isTrue trivial
  | [], _ :: _ => .isFalse id
  | _ :: _, [] => .isFalse id
  | n :: sh, i :: idx => @instDecidableAnd (i < n) (InShape sh idx) _ (decInShape sh idx)

/-- Equality of tensors: same shape, same entries. -/
def Same (t u : Tensor α) : Prop := t.shape = u.shape ∧ ∀ idx, InShape t.shape idx → t.at' idx = u.at' idx

/-- Number of entries. -/
def numel (sh : List Nat) : Nat := sh.foldr (· * ·) 1

/-- Row-major position of an index. -/
def flat : List Nat → List Nat → Nat
  | _ :: sh, i :: idx => i * numel sh + flat sh idx
  | _, _ => 0

/-- Index of a row-major position. -/
def unflat : List Nat → Nat → List Nat
  | [], _ => []
  | _ :: sh, k => k / numel sh :: unflat sh (k % numel sh)

/-- `Tensor::full(n, v)`. -/
def full (n : Nat) (v : α) : Tensor α := ⟨[n], fun _ => v⟩

/-- `Tensor::from_slice`. -/
def fromSlice [Inhabited α] (l : List α) : Tensor α := ⟨[l.length], fun idx => l.getD (idx.headD 0) default⟩

/-- `view`: reinterpretation of the row-major entries. -/
def view (t : Tensor α) (sh : List Nat) : Res (Tensor α) :=
  if numel sh = numel t.shape then .ok ⟨sh, fun idx => t.at' (unflat t.shape (flat sh idx))⟩ else .error .tensorError

/-- `Tensor::cat(&[t, u], 0)` of two tensors. -/
def cat2 (t u : Tensor α) : Res (Tensor α) :=
  match t.shape, u.shape with
  | n :: sh, m :: sh' =>
    if sh = sh' then .ok ⟨(n + m) :: sh, fun idx =>
      if idx.headD 0 < n then t.at' idx else u.at' ((idx.headD 0 - n) :: idx.tail)⟩
    else .error .tensorError
  | _, _ => .error .tensorError

/-- `Tensor::concat(&ts, 0)` / `Tensor::cat(&ts, 0)` of a non-empty list. -/
def cat : List (Tensor α) → Res (Tensor α)
  | [] => .error .tensorError
  | t :: ts => ts.foldlM cat2 t

/-- `Tensor::stack(&ts, d)`: a new dimension of size `ts.len()` at position `d`; all shapes must agree. -/
def stack (ts : List (Tensor α)) (d : Nat) : Res (Tensor α) :=
  match ts with
  | [] => .error .tensorError
  | t :: ts' =>
    if (∀ u ∈ ts', u.shape = t.shape) ∧ d ≤ t.shape.length then
      .ok ⟨t.shape.take d ++ (ts'.length + 1) :: t.shape.drop d,
        fun idx => ((t :: ts').getD (idx.getD d 0) t).at' (idx.take d ++ idx.drop (d + 1))⟩
    else .error .tensorError

/-- `permute(dims)`: dimension `k` of the result is dimension `dims[k]` of the argument. -/
def permute (t : Tensor α) (dims : List Nat) : Res (Tensor α) :=
  if dims.Perm (List.range t.shape.length) then
    .ok ⟨dims.map (t.shape.getD · 0),
      fun idx => t.at' ((List.range t.shape.length).map fun j => idx.getD (dims.idxOf j) 0)⟩
  else .error .tensorError

/-- `unsqueeze(0)`. -/
def unsqueeze0 (t : Tensor α) : Tensor α := ⟨1 :: t.shape, fun idx => t.at' idx.tail⟩

/-- `get(i)`: selects index `i` of the first dimension (non-negative indices). -/
def get (t : Tensor α) (i : Nat) : Res (Tensor α) :=
  match t.shape with
  | n :: sh => if i < n then .ok ⟨sh, fun idx => t.at' (i :: idx)⟩ else .error .tensorError
  | [] => .error .tensorError

/-- Re-insertion of the zero index at the dimensions of size one removed by `squeeze`. -/
def unsqueezeIdx : List Nat → List Nat → List Nat
  | [], _ => []
  | n :: sh, idx => if n = 1 then 0 :: unsqueezeIdx sh idx else idx.headD 0 :: unsqueezeIdx sh idx.tail

/-- `squeeze()`: removes all dimensions of size one. -/
def squeeze (t : Tensor α) : Tensor α :=
  ⟨t.shape.filter (· ≠ 1), fun idx => t.at' (unsqueezeIdx t.shape idx)⟩

/-- `squeeze_dim(1)`: removes dimension 1 if it has size one, otherwise no change; error if there is no dimension 1. -/
def squeezeDim1 (t : Tensor α) : Res (Tensor α) :=
  match t.shape with
  | n :: m :: sh => if m = 1 then .ok ⟨n :: sh, fun idx => t.at' (idx.headD 0 :: 0 :: idx.tail)⟩ else .ok t
  | _ => .error .tensorError

/-- `double_value(&idx)` / `int64_value(&idx)`: the number of indices must be the number of dimensions (the remaining
tensor must have exactly one entry: indices may be fewer only if the remaining dimensions have size one). -/
def value (t : Tensor α) (idx : List Nat) : Res α :=
  if idx.length ≤ t.shape.length ∧ InShape (t.shape.take idx.length) idx ∧ numel (t.shape.drop idx.length) = 1 then
    .ok (t.at' (idx ++ (t.shape.drop idx.length).map fun _ => 0))
  else .error .tensorError

end Tensor
end DieE
