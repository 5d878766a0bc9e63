import Verif.Props.Codes
import Verif.Props.TensorBG

/-! # C02: no panic, no overflow, profile-independent results -/

namespace DieE.Props
open DieE DieE.BG DieE.Spec

/-- C02 (one state): in every state satisfying the invariant each call returns a value, and the value is the same with
overflow checks (debug) and without (release). -/
theorem C02_state_ok {g : State} (hg : StateOK g) :
    ∃ ms, (∀ pf, getValidMoves pf g = .ok ms) ∧
      (∀ m ∈ ms, ∀ dice, ∃ g', ∀ pf, applyMove pf g m dice = .ok g') ∧
      (∀ m ∈ ms, ∃ n : Nat, n < 1351 ∧ ∀ pf, Trait.encode pf g m = .ok n ∧ Trait.decode pf g n = .ok m ∧
        Inherent.encode pf g m = .ok n ∧ Inherent.decode pf g n = .ok m) ∧
      (∀ dice, ∃ g', ∀ pf, skipTurn pf g dice = .ok g') ∧
      (∀ pf, isValid pf g = .ok ()) ∧
      (∃ t, asTensor g = .ok t) := by
  refine ⟨pureMoves (mover g) g.board (allMoves g.roll), fun pf => validMoves_eq pf hg, ?_, ?_, ?_, ?_, ?_⟩
  · intro m hm dice
    refine ⟨_, fun pf => applyMove_eq pf hg (validMoves_eq pf hg) hm dice⟩
  · intro m hm
    obtain ⟨n, h1, h2, h3⟩ := code_of_returned .debug hg (validMoves_eq .debug hg) hm
    refine ⟨n, h2, fun pf => ?_⟩
    obtain ⟨n', h1', -, h3'⟩ := code_of_returned pf hg (validMoves_eq pf hg) hm
    have hnn : n = n' := by
      have hu := returned_uses hg (validMoves_eq .debug hg) hm
      have : Trait.encode .debug g m = Trait.encode pf g m := by
        match m with
        | [] => rfl
        | [a] =>
          cases hu with
          | @cons _ _ d _ _ hd ha _ =>
            have hdr : 1 ≤ d ∧ d ≤ 6 := dice_ok hg _ ((allMoves_perm g.roll).mem_iff.2 hd)
            rw [encode_one .debug hdr (fits_of_step ha), encode_one pf hdr (fits_of_step ha)]
        | [a, b] =>
          cases hu with
          | @cons _ _ d _ _ hd ha hu =>
            cases hu with
            | @cons _ _ e _ _ he hb _ =>
              have hdr : 1 ≤ d ∧ d ≤ 6 := dice_ok hg _ ((allMoves_perm g.roll).mem_iff.2 hd)
              have her : 1 ≤ e ∧ e ≤ 6 := dice_ok hg _ ((allMoves_perm g.roll).mem_iff.2 (List.mem_of_mem_erase he))
              rw [encode_two .debug hdr (fits_of_step ha) her (fits_of_step hb),
                encode_two pf hdr (fits_of_step ha) her (fits_of_step hb)]
        | _ :: _ :: _ :: _ => rfl
      rw [h1, h1', Except.ok.injEq] at this
      omega
    subst hnn
    exact ⟨h1', h3', h1', h3'⟩
  · intro dice
    exact ⟨_, fun pf => skipTurn_eq pf hg dice⟩
  · exact fun pf => isValid_ok pf hg.board
  · obtain ⟨t, h, -⟩ := (C23_content g).2 (roll_ne hg)
    exact ⟨t, h⟩

theorem step_profile {pf pf' : Profile} {g g' : State} (hg : StateOK g) (h : Step pf g g') : Step pf' g g' := by
  obtain ⟨ms, h1, h2, -, h4, -⟩ := C02_state_ok hg
  cases h with
  | move a1 a2 a3 a4 =>
    rw [h1 pf, Except.ok.injEq] at a1
    subst a1
    obtain ⟨g2, hg2⟩ := h2 _ a2 _
    rw [hg2 pf] at a4
    exact .move (h1 pf') a2 a3 (by rw [hg2 pf']; exact a4)
  | skip a1 a2 =>
    obtain ⟨g2, hg2⟩ := h4 _
    rw [hg2 pf] at a2
    exact .skip a1 (by rw [hg2 pf']; exact a2)

/-- C02 (histories): the reachable states are the same in both profiles. -/
theorem C02_profile_independent (pf pf' : Profile) (g : State) : ReachAny pf g ↔ ReachAny pf' g := by
  have dir : ∀ pf pf', ReachAny pf g → ReachAny pf' g := by
    intro pf pf' h
    induction h with
    | start h => exact .start h
    | step hr hs ih => exact .step ih (step_profile (reachAny_ok hr) hs)
    | roll hr hd ih => exact .roll ih hd
  exact ⟨dir pf pf', dir pf' pf⟩

/-- C02: no panic in any reachable state. -/
theorem C02_no_panic (pf0 : Profile) {g : State} (h : ReachAny pf0 g) :
    ∃ ms, (∀ pf, getValidMoves pf g = .ok ms) ∧
      (∀ m ∈ ms, ∀ dice, ∃ g', ∀ pf, applyMove pf g m dice = .ok g') ∧
      (∀ m ∈ ms, ∃ n : Nat, n < 1351 ∧ ∀ pf, Trait.encode pf g m = .ok n ∧ Trait.decode pf g n = .ok m ∧
        Inherent.encode pf g m = .ok n ∧ Inherent.decode pf g n = .ok m) ∧
      (∀ dice, ∃ g', ∀ pf, skipTurn pf g dice = .ok g') ∧
      (∀ pf, isValid pf g = .ok ()) ∧
      (∃ t, asTensor g = .ok t) :=
  C02_state_ok (reachAny_ok h)

/-- The precondition is needed: before the first roll `get_valid_moves` and `as_tensor` panic. -/
theorem C02_unrolled (pf : Profile) : getValidMoves pf new = .error .assertFailed ∧ (asTensor new).toOption = none := by
  constructor
  · cases pf <;> decide +kernel
  · rw [(C23_content new).1 rfl]; rfl

example (pf : Profile) : ReachAny pf opening := .start ⟨by decide, by decide⟩

end DieE.Props
