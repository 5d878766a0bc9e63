import Verif.Prob

/-!
# Couplings

Two computations are coupled if they have the distributions of the two parts of one random pair, whose parts always stand in
a given relation.
-/

namespace DieE.Prob
open DieE
variable {α β γ δ : Type}

/-- Applies a function to the result. -/
def Prog.map (f : α → β) : Prog α → Prog β
  | .done a => .done (f a)
  | .read k => .read fun n => (k n).map f

/-- Runs two computations on the same numbers. -/
def Prog.both : Prog α → Prog β → Prog (α × β)
  | .done a, T => T.map (Prod.mk a)
  | .read f, .done b => .read fun n => (f n).both (.done b)
  | .read f, .read f' => .read fun n => (f n).both (f' n)

theorem Prog.map_law (ν : PMF ℕ) (f : α → β) (T : Prog α) : (T.map f).law ν = (T.law ν).map f := by
  induction T with
  | done a => exact (PMF.pure_map f a).symm
  | read k ih =>
    show ν.bind (fun n => ((k n).map f).law ν) = (ν.bind fun n => (k n).law ν).map f
    rw [PMF.map_bind]
    congr 1
    funext n
    exact ih n

theorem Prog.map_run (f : α → β) (T : Prog α) (t : Tape) : ((T.map f).run t).1 = f (T.run t).1 := by
  induction T generalizing t with
  | done a => rfl
  | read k ih => exact ih _ _

theorem Prog.both_run (T : Prog α) (T' : Prog β) (t : Tape) : ((T.both T').run t).1 = ((T.run t).1, (T'.run t).1) := by
  induction T generalizing T' t with
  | done a => exact map_run _ _ _
  | read f ih =>
    cases T' with
    | done b => exact ih (t 0) (.done b) (tail t)
    | read f' => exact ih (t 0) (f' (t 0)) (tail t)

theorem Prog.both_fst (ν : PMF ℕ) (T : Prog α) (T' : Prog β) : ((T.both T').law ν).map Prod.fst = T.law ν := by
  induction T generalizing T' with
  | done a =>
    show ((T'.map (Prod.mk a)).law ν).map Prod.fst = PMF.pure a
    rw [map_law, PMF.map_comp]
    exact PMF.map_const _ _
  | read f ih =>
    cases T' with
    | done b =>
      show (ν.bind fun n => ((f n).both (.done b)).law ν).map Prod.fst = _
      rw [PMF.map_bind]
      show _ = ν.bind fun n => (f n).law ν
      congr 1
      funext n
      exact ih n _
    | read f' =>
      show (ν.bind fun n => ((f n).both (f' n)).law ν).map Prod.fst = _
      rw [PMF.map_bind]
      show _ = ν.bind fun n => (f n).law ν
      congr 1
      funext n
      exact ih n _

theorem Prog.both_snd (ν : PMF ℕ) (T : Prog α) (T' : Prog β) : ((T.both T').law ν).map Prod.snd = T'.law ν := by
  induction T generalizing T' with
  | done a =>
    show ((T'.map (Prod.mk a)).law ν).map Prod.snd = _
    rw [map_law, PMF.map_comp]
    exact PMF.map_id _
  | read f ih =>
    cases T' with
    | done b =>
      show (ν.bind fun n => ((f n).both (.done b)).law ν).map Prod.snd = PMF.pure b
      rw [PMF.map_bind]
      have : (fun n => (((f n).both (.done b)).law ν).map Prod.snd) = fun _ => PMF.pure b := funext fun n => ih n _
      rw [this, PMF.bind_const]
    | read f' =>
      show (ν.bind fun n => ((f n).both (f' n)).law ν).map Prod.snd = _
      rw [PMF.map_bind]
      show _ = ν.bind fun n => (f' n).law ν
      congr 1
      funext n
      exact ih n _

/-- The two computations always return, and have the distributions of the two parts of one random pair, whose parts are always
related. -/
def Coupled (R : α → β → Prop) (m : M α) (m' : M β) : Prop :=
  ∀ ν, ∃ q : PMF (α × β), Law ν m (q.map fun p => .ok p.1) ∧ Law ν m' (q.map fun p => .ok p.2) ∧ ∀ p ∈ q.support, R p.1 p.2

theorem Coupled.mono {R S : α → β → Prop} {m : M α} {m' : M β} (h : Coupled R m m') (hRS : ∀ a b, R a b → S a b) :
    Coupled S m m' := by
  intro ν
  obtain ⟨q, h1, h2, h3⟩ := h ν
  exact ⟨q, h1, h2, fun p hp => hRS _ _ (h3 p hp)⟩

theorem value_ok {m : M α} {t : Tape} {a : α} (h : value m t = .ok a) : ∃ t', m t = .ok (a, t') := by
  unfold value at h
  cases hm : m t with
  | error e => rw [hm] at h; cases h
  | ok x =>
    rw [hm] at h
    cases h
    exact ⟨x.2, rfl⟩

/-- Only results that occur need to be considered. -/
theorem Coupled.occur {R : α → β → Prop} {m : M α} {m' : M β} (h : Coupled R m m') :
    Coupled (fun a b => R a b ∧ (∃ t t', m t = .ok (a, t')) ∧ ∃ t t', m' t = .ok (b, t')) m m' := by
  intro ν
  obtain ⟨q, h1, h2, h3⟩ := h ν
  refine ⟨q, h1, h2, fun p hp => ⟨h3 p hp, ?_, ?_⟩⟩
  · obtain ⟨t, ht⟩ := h1.support (r := .ok p.1) ((PMF.mem_support_map_iff _ _ _).2 ⟨p, hp, rfl⟩)
    exact ⟨t, value_ok ht⟩
  · obtain ⟨t, ht⟩ := h2.support (r := .ok p.2) ((PMF.mem_support_map_iff _ _ _).2 ⟨p, hp, rfl⟩)
    exact ⟨t, value_ok ht⟩

/-- Computations that always return related results on the same numbers. -/
theorem Coupled.tape {R : α → β → Prop} {m : M α} {m' : M β} (hm : Short m) (hm' : Short m')
    (h : ∀ t, ∃ a b t1 t2, m t = .ok (a, t1) ∧ m' t = .ok (b, t2) ∧ R a b) : Coupled R m m' := by
  intro ν
  obtain ⟨T, hT⟩ := hm
  obtain ⟨T', hT'⟩ := hm'
  obtain ⟨a0, b0, -⟩ := h fun _ => 0
  let f : Res α × Res β → α × β := fun x => match x with
    | (.ok a, .ok b) => (a, b)
    | _ => (a0, b0)
  have key : ∀ x ∈ ((T.both T').law ν).support, ∃ a b, x = (.ok a, .ok b) ∧ R a b := by
    intro x hx
    obtain ⟨t, ht⟩ := support_run ν _ hx
    rw [Prog.both_run] at ht
    obtain ⟨a, b, t1, t2, h1, h2, h3⟩ := h t
    refine ⟨a, b, ?_, h3⟩
    rw [← ht, ← hT.value, ← hT'.value]
    unfold value
    rw [h1, h2]
    rfl
  refine ⟨((T.both T').law ν).map f, ⟨T, hT, ?_⟩, ⟨T', hT', ?_⟩, ?_⟩
  · rw [PMF.map_comp, ← Prog.both_fst ν T T']
    refine bind_congr_support _ fun x hx => ?_
    obtain ⟨a, b, rfl, -⟩ := key x hx
    rfl
  · rw [PMF.map_comp, ← Prog.both_snd ν T T']
    refine bind_congr_support _ fun x hx => ?_
    obtain ⟨a, b, rfl, -⟩ := key x hx
    rfl
  · intro p hp
    obtain ⟨x, hx, rfl⟩ := (PMF.mem_support_map_iff _ _ _).1 hp
    obtain ⟨a, b, rfl, h3⟩ := key x hx
    exact h3

theorem Coupled.pure {R : α → β → Prop} {a : α} {b : β} (h : R a b) : Coupled R (Pure.pure a : M α) (Pure.pure b : M β) :=
  .tape (short_pure a) (short_pure b) fun t => ⟨a, b, t, t, rfl, rfl, h⟩

theorem Coupled.bind {R : α → β → Prop} {S : γ → δ → Prop} {m : M α} {m' : M β} {f : α → M γ} {f' : β → M δ}
    (h : Coupled R m m') (hf : ∀ a, Short (f a)) (hf' : ∀ b, Short (f' b)) (hs : ∀ a b, R a b → Coupled S (f a) (f' b)) :
    Coupled S (m >>= f) (m' >>= f') := by
  intro ν
  obtain ⟨q, h1, h2, h3⟩ := h ν
  obtain ⟨p0, hp0⟩ := q.support_nonempty
  obtain ⟨r0, -⟩ := hs _ _ (h3 p0 hp0) ν
  have key : ∀ p : α × β, ∃ r : PMF (γ × δ), R p.1 p.2 → Law ν (f p.1) (r.map fun p => .ok p.1) ∧
      Law ν (f' p.2) (r.map fun p => .ok p.2) ∧ ∀ x ∈ r.support, S x.1 x.2 := by
    intro p
    by_cases hp : R p.1 p.2
    · obtain ⟨r, hr⟩ := hs _ _ hp ν
      exact ⟨r, fun _ => hr⟩
    · exact ⟨r0, fun h => absurd h hp⟩
  choose r hr using key
  choose l hl using fun a => (hf a).law ν
  choose l' hl' using fun b => (hf' b).law ν
  refine ⟨q.bind r, ?_, ?_, ?_⟩
  · have e : andThen (q.map fun p => .ok p.1) l = (q.bind r).map fun p => .ok p.1 := by
      unfold andThen
      rw [PMF.map_bind, PMF.bind_map]
      refine bind_congr_support _ fun p hp => ?_
      exact (hl p.1).unique (hr p (h3 p hp)).1
    rw [← e]
    exact law_bind h1 hl
  · have e : andThen (q.map fun p => .ok p.2) l' = (q.bind r).map fun p => .ok p.2 := by
      unfold andThen
      rw [PMF.map_bind, PMF.bind_map]
      refine bind_congr_support _ fun p hp => ?_
      exact (hl' p.2).unique (hr p (h3 p hp)).2.1
    rw [← e]
    exact law_bind h2 hl'
  · intro x hx
    obtain ⟨p, hp, hx⟩ := (PMF.mem_support_bind_iff _ _ _).1 hx
    exact (hr p (h3 p hp)).2.2 x hx

/-- Coupled by equality: the same distribution. -/
theorem Coupled.same {m m' : M α} (h : Coupled Eq m m') : Same m m' := by
  intro ν
  obtain ⟨q, h1, h2, h3⟩ := h ν
  refine ⟨_, h1, ?_⟩
  have e : (q.map fun p => (.ok p.1 : Res α)) = q.map fun p => .ok p.2 :=
    bind_congr_support q fun p hp => by
      show PMF.pure (Except.ok p.1) = PMF.pure (Except.ok p.2)
      rw [h3 p hp]
  rw [e]
  exact h2

theorem bind_bind_M (m : M α) (f : α → M β) (g : β → M γ) : (m >>= f) >>= g = m >>= fun a => f a >>= g := by
  funext t
  have run : ∀ {x : M α} {f : α → M γ}, (x >>= f) t = (match x t with
      | Except.error e => Except.error e
      | Except.ok (a, t) => f a t) := rfl
  have run' : ((m >>= f) >>= g) t = (match (m >>= f) t with
      | Except.error e => Except.error e
      | Except.ok (a, t) => g a t) := rfl
  have run'' : (m >>= f) t = (match m t with
      | Except.error e => Except.error e
      | Except.ok (a, t) => f a t) := rfl
  rw [run', run'', run]
  cases m t with
  | error e => rfl
  | ok x => rfl

theorem bind_pure_M (m : M α) : m >>= Pure.pure = m := by
  funext t
  show (match m t with | Except.error e => Except.error e | Except.ok (a, t) => Except.ok (a, t)) = _
  cases m t with
  | error e => rfl
  | ok x => rfl

theorem pure_bind_M (a : α) (f : α → M β) : (Pure.pure a : M α) >>= f = f a := rfl

end DieE.Prob
