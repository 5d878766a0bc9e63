import Verif.Backgammon.Tensor
import Verif.Props.Rules

/-! # C23: the network input of a backgammon state -/

namespace DieE.Props
open DieE DieE.BG DieE.Spec

/-- Specification of the network input: channel `c` at row `i`, column `j`. -/
def cell (g : State) (c i j : Nat) : Int :=
  match c with
  | 0 => g.board.pt (6 * i + j)
  | 1 => g.player
  | 2 => if i < 2 then g.board.hit.1 else g.board.hit.2
  | 3 => if i < 2 then g.board.col.1 else g.board.col.2
  | 4 => if i < 2 then g.roll.1 else g.roll.2
  | _ => if g.second then 1 else 0

theorem pts_getD (b : Board) (k : Nat) (hk : k < 24) : b.pts.toList.getD k default = b.pt k := by
  unfold Board.pt
  rw [if_pos (by omega)]
  simp [List.getD, hk]

theorem board_plane (b : Board) : (Tensor.fromSlice b.pts.toList).view [4, 6, 1] =
    .ok ⟨[4, 6, 1], fun idx => b.pts.toList.getD (Tensor.flat [4, 6, 1] idx / 1) default⟩ := by
  unfold Tensor.view
  rw [if_pos (by simp [Tensor.numel, Tensor.fromSlice])]
  rfl

theorem full_plane (v : Int) : fullPlane v = .ok ⟨[4, 6, 1], fun _ => v⟩ := rfl

theorem half_plane (v w : Int) : halfPlane v w =
    .ok ⟨[4, 6, 1], fun idx => if Tensor.flat [4, 6, 1] idx / 1 < 12 then v else w⟩ := rfl

/-- C23 (content): `as_tensor` panics exactly when the dice have not been rolled; otherwise the result has shape
`[1, 6, 4, 6]` and the documented entries. -/
theorem C23_content (g : State) :
    (g.roll = (0, 0) → asTensor g = .error .assertFailed) ∧
    (g.roll ≠ (0, 0) → ∃ t, asTensor g = .ok t ∧ t.shape = [1, 6, 4, 6] ∧
      ∀ c i j, c < 6 → i < 4 → j < 6 → t.at' [0, c, i, j] = cell g c i j) := by
  constructor
  · intro h; unfold asTensor; rw [h]; rfl
  · intro h
    unfold asTensor
    have ha : assert (decide (g.roll ≠ (0, 0))) = .ok () := by simp [assert, h]
    rw [ha, bind_ok, board_plane, bind_ok, full_plane, bind_ok, half_plane, bind_ok, half_plane, bind_ok, half_plane,
      bind_ok, full_plane, bind_ok]
    unfold Tensor.stack
    simp only
    rw [if_pos (by simp), bind_ok]
    unfold Tensor.permute
    rw [if_pos (by simp only [List.take, List.drop, List.length, List.append_eq, List.cons_append, List.nil_append]; decide)]
    refine ⟨_, rfl, rfl, ?_⟩
    intro c i j hc hi hj
    have hc' : c = 0 ∨ c = 1 ∨ c = 2 ∨ c = 3 ∨ c = 4 ∨ c = 5 := by omega
    have hk : i * 6 + j = 6 * i + j := by omega
    rcases hc' with rfl | rfl | rfl | rfl | rfl | rfl
    · show g.board.pts.toList.getD ((i * 6 + (j * 1 + (0 * 1 + 0))) / 1) default = g.board.pt (6 * i + j)
      have := pts_getD g.board (6 * i + j) (by omega)
      rw [show ((6 * i + j : Nat) : Int) = 6 * (i : Int) + j by omega] at this
      rw [← this]
      congr 1
      omega
    · rfl
    · show (if (i * 6 + (j * 1 + (0 * 1 + 0))) / 1 < 12 then g.board.hit.1 else g.board.hit.2) = _
      unfold cell
      simp only
      split <;> split <;> first | rfl | omega
    · show (if (i * 6 + (j * 1 + (0 * 1 + 0))) / 1 < 12 then g.board.col.1 else g.board.col.2) = _
      unfold cell
      simp only
      split <;> split <;> first | rfl | omega
    · show (if (i * 6 + (j * 1 + (0 * 1 + 0))) / 1 < 12 then g.roll.1 else g.roll.2) = _
      unfold cell
      simp only
      split <;> split <;> first | rfl | omega
    · rfl

/-- C23 (injectivity): two states with the same network input agree in everything but `id`. -/
theorem C23_injective {g g' : State} {t t' : Tensor Int} (h : asTensor g = .ok t) (h' : asTensor g' = .ok t')
    (hs : Tensor.Same t t') :
    g.board = g'.board ∧ g.player = g'.player ∧ g.roll = g'.roll ∧ g.second = g'.second := by
  have hr : g.roll ≠ (0, 0) := fun hc => by rw [(C23_content g).1 hc] at h; cases h
  have hr' : g'.roll ≠ (0, 0) := fun hc => by rw [(C23_content g').1 hc] at h'; cases h'
  obtain ⟨u, e, sh, ht⟩ := (C23_content g).2 hr
  obtain ⟨u', e', sh', ht'⟩ := (C23_content g').2 hr'
  rw [h] at e; cases e
  rw [h'] at e'; cases e'
  have key : ∀ c i j, c < 6 → i < 4 → j < 6 → cell g c i j = cell g' c i j := by
    intro c i j hc hi hj
    rw [← ht c i j hc hi hj, ← ht' c i j hc hi hj]
    refine hs.2 _ ?_
    rw [sh]
    exact ⟨by omega, hc, hi, hj, trivial⟩
  have k1 := key 1 0 0 (by omega) (by omega) (by omega)
  have k20 := key 2 0 0 (by omega) (by omega) (by omega)
  have k21 := key 2 3 0 (by omega) (by omega) (by omega)
  have k30 := key 3 0 0 (by omega) (by omega) (by omega)
  have k31 := key 3 3 0 (by omega) (by omega) (by omega)
  have k40 := key 4 0 0 (by omega) (by omega) (by omega)
  have k41 := key 4 3 0 (by omega) (by omega) (by omega)
  have k5 := key 5 0 0 (by omega) (by omega) (by omega)
  refine ⟨?_, k1, Prod.ext k40 k41, ?_⟩
  · refine board_ext ?_ (Prod.ext k20 k21) (Prod.ext k30 k31)
    intro i hi0 hi
    have := key 0 (i.toNat / 6) (i.toNat % 6) (by omega) (by omega) (by omega)
    unfold cell at this
    simp only at this
    rw [show 6 * ((i.toNat / 6 : Nat) : Int) + ((i.toNat % 6 : Nat) : Int) = i by omega] at this
    exact this
  · revert k5
    unfold cell
    cases g.second <;> cases g'.second <;> simp

example : ∃ t, asTensor bearState = .ok t ∧ t.shape = [1, 6, 4, 6] ∧ t.at' [0, 0, 3, 1] = 1 ∧ t.at' [0, 4, 3, 0] = 4 := by
  refine ⟨_, rfl, rfl, ?_, ?_⟩ <;> decide +kernel

end DieE.Props
