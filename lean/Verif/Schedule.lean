import Verif.Prob

/-!
# Parallel computations

Several computations that read random numbers are run in parallel: at any time any of them may read the next number.  The
distribution of the results does not depend on the schedule.
-/

namespace DieE.Prob
open DieE MeasureTheory
variable {α β : Type}

/-- The result, or that there was a panic. -/
def known : Res α → Option α
  | .ok a => some a
  | .error _ => none

/-- The tree is a parallel run of the computations: at every point one of those that are not finished reads the next
number, whichever the scheduler chooses, who knows the numbers read so far.  If a computation panics, the run may panic
at any later point. -/
inductive Par : List (Prog (Res α)) → Prog (Res (List α)) → Prop
  | done (as : List α) : Par (as.map fun a => .done (.ok a)) (.done (.ok as))
  | panic {ps : List (Prog (Res α))} {e : Panic} : .done (.error e) ∈ ps → Par ps (.done (.error e))
  | step {ps : List (Prog (Res α))} {i : Nat} {f : ℕ → Prog (Res α)} {T : ℕ → Prog (Res (List α))} : ps[i]? = some (.read f) →
      (∀ x, Par (ps.set i (f x)) (T x)) → Par ps (.read T)

/-- The distribution of the results of independent computations, or of a panic. -/
noncomputable def together (ν : PMF ℕ) : List (Prog (Res α)) → PMF (Option (List α))
  | [] => PMF.pure (some [])
  | p :: ps => (p.law ν).bind fun r => match r with
    | .ok a => (together ν ps).map (Option.map (a :: ·))
    | .error _ => PMF.pure none

theorem together_done (ν : PMF ℕ) (as : List α) : together ν (as.map fun a => Prog.done (.ok a)) = PMF.pure (some as) := by
  induction as with
  | nil => rfl
  | cons a as ih =>
    rw [List.map_cons, together, Prog.law, PMF.pure_bind]
    simp only
    rw [ih, PMF.pure_map]
    rfl

theorem together_panic (ν : PMF ℕ) {ps : List (Prog (Res α))} {e : Panic} (h : .done (.error e) ∈ ps) :
    together ν ps = PMF.pure none := by
  induction ps with
  | nil => cases h
  | cons p ps ih =>
    rw [together]
    rcases List.mem_cons.1 h with rfl | h
    · rw [Prog.law, PMF.pure_bind]
    · rw [ih h]
      refine Eq.trans ?_ (PMF.bind_const (p.law ν) (PMF.pure none))
      congr 1
      funext r
      cases r with
      | ok a => exact PMF.pure_map _ _
      | error e => rfl

theorem together_step (ν : PMF ℕ) {ps : List (Prog (Res α))} {i : Nat} {f : ℕ → Prog (Res α)} (h : ps[i]? = some (.read f)) :
    together ν ps = ν.bind fun x => together ν (ps.set i (f x)) := by
  induction ps generalizing i with
  | nil => cases h
  | cons p ps ih =>
    cases i with
    | zero =>
      obtain rfl : p = .read f := Option.some.inj h
      simp only [List.set_cons_zero]
      rw [together, Prog.law, PMF.bind_bind]
      rfl
    | succ i =>
      simp only [List.set_cons_succ, together]
      rw [PMF.bind_comm]
      congr 1
      funext r
      cases r with
      | error e => rw [PMF.bind_const]
      | ok a =>
        simp only
        rw [ih (i := i) h, PMF.map_bind]

/-- The distribution of the results does not depend on the schedule. -/
theorem par_law (ν : PMF ℕ) {ps : List (Prog (Res α))} {T : Prog (Res (List α))} (h : Par ps T) :
    (T.law ν).map known = together ν ps := by
  induction h with
  | done as => rw [together_done, Prog.law, PMF.pure_map]; rfl
  | panic h => rw [together_panic ν h, Prog.law, PMF.pure_map]; rfl
  | step h _ ih =>
    rw [together_step ν h, Prog.law, PMF.map_bind]
    congr 1
    funext x
    exact ih x

/-- Two computations that return the same results with the same probabilities, and panic with the same probability. -/
def Like (m m' : M α) : Prop := ∀ ν, ∃ p p', Law ν m p ∧ Law ν m' p' ∧ p.map known = p'.map known

theorem Short.like {m : M α} (h : Short m) : Like m m := fun ν => let ⟨p, hp⟩ := h.law ν; ⟨p, p, hp, hp, rfl⟩

theorem Like.short {m m' : M α} (h : Like m m') : Short m ∧ Short m' :=
  let ⟨_, _, h1, h2, _⟩ := h (PMF.pure 0); ⟨h1.short, h2.short⟩

theorem known_andThen (p : PMF (Res α)) (q : α → PMF (Res β)) :
    (andThen p q).map known = (p.map known).bind fun o => match o with
      | some a => (q a).map known
      | none => PMF.pure none := by
  unfold andThen
  rw [PMF.map_bind, PMF.bind_map]
  congr 1
  funext r
  cases r with
  | ok a => rfl
  | error e => exact PMF.pure_map _ _

theorem Like.bind {m m' : M α} {f f' : α → M β} (h : Like m m') (hf : ∀ a, Like (f a) (f' a)) : Like (m >>= f) (m' >>= f') := by
  intro ν
  obtain ⟨p, p', h1, h2, h3⟩ := h ν
  choose q q' g1 g2 g3 using fun a => hf a ν
  refine ⟨_, _, law_bind h1 g1, law_bind h2 g2, ?_⟩
  rw [known_andThen, known_andThen, h3]
  congr 1
  funext o
  cases o with
  | some a => exact g3 a
  | none => rfl

/-- The probabilities of all results are the same. -/
theorem Like.prob {m m' : M α} (h : Like m m') (ν : PMF ℕ) (A : Set α) :
    iid ν {t | ∃ a ∈ A, value m t = .ok a} = iid ν {t | ∃ a ∈ A, value m' t = .ok a} := by
  obtain ⟨p, p', h1, h2, h3⟩ := h ν
  have e : ∀ {m : M α} {p : PMF (Res α)}, Law ν m p →
      iid ν {t | ∃ a ∈ A, value m t = .ok a} = (p.map known).toOuterMeasure {o | ∃ a ∈ A, o = some a} := by
    intro m p h
    rw [PMF.toOuterMeasure_map_apply, ← h.prob]
    congr 1
    ext t
    show (∃ a ∈ A, value m t = .ok a) ↔ ∃ a ∈ A, known (value m t) = some a
    refine exists_congr fun a => and_congr_right fun _ => ?_
    cases value m t with
    | ok b => exact ⟨fun h => by cases h; rfl, fun h => by cases h; rfl⟩
    | error e => exact iff_of_false (fun h => nomatch h) (fun h => nomatch h)
  rw [e h1, e h2, h3]

/-- The probability of a panic is the same. -/
theorem Like.prob_panic {m m' : M α} (h : Like m m') (ν : PMF ℕ) :
    iid ν {t | ∃ e, value m t = .error e} = iid ν {t | ∃ e, value m' t = .error e} := by
  obtain ⟨p, p', h1, h2, h3⟩ := h ν
  have e : ∀ {m : M α} {p : PMF (Res α)}, Law ν m p →
      iid ν {t | ∃ e, value m t = .error e} = (p.map known).toOuterMeasure {none} := by
    intro m p h
    rw [PMF.toOuterMeasure_map_apply, ← h.prob]
    congr 1
    ext t
    show (∃ e, value m t = .error e) ↔ known (value m t) = none
    cases value m t with
    | ok b => exact iff_of_false (fun ⟨_, h⟩ => nomatch h) (fun h => nomatch h)
    | error e => exact iff_of_true ⟨e, rfl⟩ rfl
  rw [e h1, e h2, h3]

/-- The possible results are the same. -/
theorem Like.possible {m m' : M α} (h : Like m m') {t : Tape} {a : α} (ha : value m t = .ok a) : ∃ t', value m' t' = .ok a := by
  obtain ⟨ν, hν⟩ := exists_full
  obtain ⟨p, p', ⟨T, h1, rfl⟩, h2, h3⟩ := h ν
  have hs : some a ∈ ((T.law ν).map known).support := by
    rw [PMF.mem_support_map_iff]
    refine ⟨.ok a, ?_, rfl⟩
    rw [← ha, h1.value]
    exact run_support hν T t
  rw [h3, PMF.mem_support_map_iff] at hs
  obtain ⟨r, hr, e⟩ := hs
  obtain ⟨t', ht'⟩ := h2.support hr
  refine ⟨t', ?_⟩
  rw [ht']
  cases r with
  | ok b => cases e; rfl
  | error e' => cases e

/-- Panics are possible for both or for none. -/
theorem Like.panics {m m' : M α} (h : Like m m') {t : Tape} {e : Panic} (ha : value m t = .error e) : ∃ t' e', value m' t' = .error e' := by
  obtain ⟨ν, hν⟩ := exists_full
  obtain ⟨p, p', ⟨T, h1, rfl⟩, h2, h3⟩ := h ν
  have hs : none ∈ ((T.law ν).map known).support := by
    rw [PMF.mem_support_map_iff]
    refine ⟨.error e, ?_, rfl⟩
    rw [← ha, h1.value]
    exact run_support hν T t
  rw [h3, PMF.mem_support_map_iff] at hs
  obtain ⟨r, hr, e⟩ := hs
  obtain ⟨t', ht'⟩ := h2.support hr
  cases r with
  | ok b => cases e
  | error e' => exact ⟨t', e', ht'⟩

theorem Like.symm {m m' : M α} (h : Like m m') : Like m' m :=
  fun ν => let ⟨p, p', h1, h2, h3⟩ := h ν; ⟨p', p, h2, h1, h3.symm⟩

theorem Like.trans {m m' m'' : M α} (h : Like m m') (h' : Like m' m'') : Like m m'' := by
  intro ν
  obtain ⟨p, p', h1, h2, h3⟩ := h ν
  obtain ⟨q, q', g1, g2, g3⟩ := h' ν
  rw [h2.unique g1] at h3
  exact ⟨p, q', h1, g2, h3.trans g3⟩

theorem short_fail (e : Panic) : Short (M.fail e : M α) := ⟨.done (.error e), fun _ => rfl⟩

/-- The events of a computation are measurable. -/
theorem Short.measurable {m : M α} (h : Short m) (A : Set (Res α)) : MeasurableSet {t | value m t ∈ A} := by
  obtain ⟨T, hT⟩ := h
  have : {t | value m t ∈ A} = {t | (T.run t).1 ∈ A} := by
    ext t
    show value m t ∈ A ↔ _
    rw [hT.value]
    rfl
  rw [this]
  exact run_measurable T A

theorem run_support_of {ν : PMF ℕ} (T : Prog α) {t : Tape} (ht : ∀ i, t i ∈ ν.support) : (T.run t).1 ∈ (T.law ν).support := by
  induction T generalizing t with
  | done a => rw [Prog.law, PMF.mem_support_pure_iff]; rfl
  | read f ih => rw [Prog.law, PMF.mem_support_bind_iff]; exact ⟨t 0, ht 0, ih _ fun i => ht (i + 1)⟩

/-- The result on a tape all of whose numbers are possible has positive probability. -/
theorem Short.positive {m : M α} (h : Short m) {ν : PMF ℕ} {t : Tape} (ht : ∀ i, t i ∈ ν.support) :
    0 < iid ν {t' | value m t' = value m t} := by
  obtain ⟨T, hT⟩ := h
  have e : {t' | value m t' = value m t} = {t' | (T.run t').1 ∈ ({(T.run t).1} : Set (Res α))} := by
    ext t'
    show value m t' = value m t ↔ (T.run t').1 = (T.run t).1
    rw [hT.value, hT.value]
  rw [e, run_prob]
  rw [pos_iff_ne_zero, ne_eq, PMF.toOuterMeasure_apply_eq_zero_iff, Set.disjoint_singleton_right, not_not]
  exact run_support_of T ht

end DieE.Prob
