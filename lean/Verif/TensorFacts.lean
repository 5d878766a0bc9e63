import Verif.Tensor
import Mathlib.Data.List.Basic

/-! # Facts about tensors: stacking, concatenation, squeezing -/

namespace DieE.Tensor
variable {α : Type}

theorem Same.refl (t : Tensor α) : Same t t := ⟨rfl, fun _ _ => rfl⟩

theorem Same.symm {t u : Tensor α} (h : Same t u) : Same u t := ⟨h.1.symm, fun idx hi => (h.2 idx (h.1 ▸ hi)).symm⟩

theorem Same.trans {t u v : Tensor α} (h : Same t u) (h' : Same u v) : Same t v :=
  ⟨h.1.trans h'.1, fun idx hi => (h.2 idx hi).trans (h'.2 idx (h.1 ▸ hi))⟩

theorem InShape.length {sh idx : List Nat} (h : InShape sh idx) : idx.length = sh.length := by
  induction sh generalizing idx with
  | nil => cases idx with
    | nil => rfl
    | cons => exact h.elim
  | cons n sh ih => cases idx with
    | nil => exact h.elim
    | cons i idx => exact congrArg (· + 1) (ih h.2)

/-- Stacking along a new first dimension. -/
theorem stack_ok {ts : List (Tensor α)} {sh : List Nat} (hne : ts ≠ []) (hsh : ∀ t ∈ ts, t.shape = sh) :
    ∃ t, stack ts 0 = .ok t ∧ t.shape = ts.length :: sh ∧
      ∀ (j : Nat) (u : Tensor α), ts[j]? = some u → ∀ idx, t.at' (j :: idx) = u.at' idx := by
  cases ts with
  | nil => exact absurd rfl hne
  | cons t ts =>
    have h0 := hsh t (List.mem_cons_self ..)
    refine ⟨⟨(ts.length + 1) :: t.shape, fun idx => ((t :: ts).getD (idx.getD 0 0) t).at' (idx.drop 1)⟩, ?_, ?_, ?_⟩
    · show (if _ then _ else _) = _
      rw [if_pos ⟨fun u hu => (hsh u (List.mem_cons_of_mem _ hu)).trans h0.symm, Nat.zero_le _⟩]
      rfl
    · show (ts.length + 1) :: t.shape = _
      rw [h0]
      rfl
    · intro j u hu idx
      show ((t :: ts).getD j t).at' idx = _
      rw [List.getD_eq_getElem?_getD, hu]
      rfl

/-- Nothing can be stacked. -/
theorem stack_nil (d : Nat) : stack ([] : List (Tensor α)) d = .error .tensorError := rfl

theorem foldlM_cat2 {sh : List Nat} (ts : List (Tensor α)) (hsh : ∀ t ∈ ts, t.shape = 1 :: sh) (acc : Tensor α) (m : Nat)
    (hacc : acc.shape = m :: sh) :
    ∃ t, ts.foldlM cat2 acc = .ok t ∧ t.shape = (m + ts.length) :: sh ∧
      (∀ j, j < m → ∀ idx, t.at' (j :: idx) = acc.at' (j :: idx)) ∧
      ∀ (j : Nat) (u : Tensor α), ts[j]? = some u → ∀ idx, t.at' ((m + j) :: idx) = u.at' (0 :: idx) := by
  induction ts generalizing acc m with
  | nil => exact ⟨acc, rfl, hacc, fun _ _ _ => rfl, by simp⟩
  | cons u ts ih =>
    have hu := hsh u (List.mem_cons_self ..)
    let acc' : Tensor α := ⟨(m + 1) :: sh, fun idx =>
      if idx.headD 0 < m then acc.at' idx else u.at' ((idx.headD 0 - m) :: idx.tail)⟩
    have hc : cat2 acc u = .ok acc' := by
      unfold cat2
      rw [hacc, hu]
      exact if_pos rfl
    obtain ⟨t, h1, h2, h3, h4⟩ := ih (fun t ht => hsh t (List.mem_cons_of_mem _ ht)) acc' (m + 1) rfl
    refine ⟨t, ?_, ?_, ?_, ?_⟩
    · rw [List.foldlM_cons, hc]
      exact h1
    · rw [h2, List.length_cons]
      congr 1
      omega
    · intro j hj idx
      rw [h3 j (by omega) idx]
      exact if_pos hj
    · intro j v hv idx
      cases j with
      | zero =>
        have hv' : u = v := Option.some.inj hv
        rw [Nat.add_zero, h3 m (by omega) idx, ← hv']
        have : ¬ (m < m) := by omega
        show (if m < m then _ else u.at' ((m - m) :: idx)) = _
        rw [if_neg this, Nat.sub_self]
      | succ j =>
        rw [show m + (j + 1) = m + 1 + j by omega]
        exact h4 j v hv idx

/-- Concatenation of tensors of one row each. -/
theorem cat_ok {ts : List (Tensor α)} {sh : List Nat} (hne : ts ≠ []) (hsh : ∀ t ∈ ts, t.shape = 1 :: sh) :
    ∃ t, cat ts = .ok t ∧ t.shape = ts.length :: sh ∧
      ∀ (j : Nat) (u : Tensor α), ts[j]? = some u → ∀ idx, t.at' (j :: idx) = u.at' (0 :: idx) := by
  cases ts with
  | nil => exact absurd rfl hne
  | cons t ts =>
    obtain ⟨r, h1, h2, h3, h4⟩ := foldlM_cat2 ts (fun u hu => hsh u (List.mem_cons_of_mem _ hu)) t 1
      (hsh t (List.mem_cons_self ..))
    refine ⟨r, h1, ?_, ?_⟩
    · rw [h2, List.length_cons, Nat.add_comm]
    · intro j u hu idx
      cases j with
      | zero =>
        rw [h3 0 (by omega) idx, Option.some.inj hu]
      | succ j =>
        rw [Nat.add_comm]
        exact h4 j u hu idx

theorem unsqueezeIdx_eq {sh idx : List Nat} (h : ∀ n ∈ sh, n ≠ 1) (hl : idx.length = sh.length) :
    unsqueezeIdx sh idx = idx := by
  induction sh generalizing idx with
  | nil => cases idx with
    | nil => rfl
    | cons => simp at hl
  | cons n sh ih => cases idx with
    | nil => simp at hl
    | cons i idx =>
      unfold unsqueezeIdx
      rw [if_neg (h n (List.mem_cons_self ..))]
      show i :: unsqueezeIdx sh idx = _
      rw [ih (fun m hm => h m (List.mem_cons_of_mem _ hm)) (by simpa using hl)]

/-- `squeeze` changes nothing if no dimension has size one. -/
theorem squeeze_same {t : Tensor α} (h : ∀ n ∈ t.shape, n ≠ 1) : Same t.squeeze t := by
  have hf : t.shape.filter (· ≠ 1) = t.shape := List.filter_eq_self.2 fun n hn => by simpa using h n hn
  refine ⟨hf, fun idx hi => ?_⟩
  have hl : idx.length = t.shape.length := by
    have := hi.length
    rwa [show t.squeeze.shape = t.shape from hf] at this
  show t.at' (unsqueezeIdx t.shape idx) = _
  rw [unsqueezeIdx_eq h hl]

theorem get_ok {t : Tensor α} {n : Nat} {sh : List Nat} (h : t.shape = n :: sh) {i : Nat} (hi : i < n) :
    t.get i = .ok ⟨sh, fun idx => t.at' (i :: idx)⟩ := by
  unfold get
  rw [h]
  exact if_pos hi

end DieE.Tensor
