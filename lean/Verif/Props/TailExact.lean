import Verif.Props.Tail
import Verif.Versus.Short
import Mathlib.Probability.Distributions.Uniform

/-!
# C120: the length of a match is not bounded
-/

namespace DieE.Props.Tl
open DieE DieE.Mcts DieE.Versus DieE.Props DieE.Props.V DieE.Props.Sr DieE.Prob
open MeasureTheory

variable {Fl : Floats}

theorem endsBy_iff {pf : Profile} {rnd : Rat → Rat} {p1 p2 : Player Fl} {cfg : Config} {o : Orders} {f : Nat} {t : Tape} :
    t ∈ EndsBy pf rnd p1 p2 cfg o f ↔ ∃ r, value (play (G := BG.game pf) pf rnd p1 p2 cfg o f) t = .ok r := by
  show (∃ r t', play (G := BG.game pf) pf rnd p1 p2 cfg o f t = .ok (r, t')) ↔ _
  unfold value
  cases play (G := BG.game pf) pf rnd p1 p2 cfg o f t with
  | ok x => exact iff_of_true ⟨x.1, x.2, rfl⟩ ⟨x.1, rfl⟩
  | error e => exact iff_of_false (fun ⟨_, _, h⟩ => nomatch h) (fun ⟨_, h⟩ => nomatch h)

/-- That a match is over after `f` rounds is an event. -/
theorem endsBy_measurable (pf : Profile) (rnd : Rat → Rat) (p1 p2 : Player Fl) (cfg : Config) (o : Orders) (f : Nat) :
    MeasurableSet (EndsBy pf rnd p1 p2 cfg o f) := by
  have h := (playN_short (bg_brief pf) pf rnd p1 p2 cfg 400 400 o f).measurable {r | ∃ x, r = .ok x}
  have e : EndsBy pf rnd p1 p2 cfg o f = {t | value (playN (G := BG.game pf) pf rnd p1 p2 cfg 400 400 o f) t ∈ {r | ∃ x, r = .ok x}} := by
    ext t
    exact endsBy_iff
  rw [e]
  exact h

/-- C120, no bound: with positive probability a match of two random players takes more than `f` rounds, for every `f`, if
the dice can show a six. -/
theorem C120_unbounded (rnd : Rat → Rat) {p1 p2 : Player Fl} (h1 : p1.agent = .random) (h2 : p2.agent = .random)
    (cfg : Config) {o : Orders} (ho : o.Valid) {ν : PMF ℕ} (hν : 5 ∈ ν.support) (f : Nat) :
    0 < iid ν (EndsBy .debug rnd p1 p2 cfg o f)ᶜ := by
  have h := (playN_short (bg_brief .debug) .debug rnd p1 p2 cfg 400 400 o f).positive (ν := ν) (t := Stuck.sixes) fun _ => hν
  refine lt_of_lt_of_le h (measure_mono fun t ht hc => ?_)
  have he : value (play (G := BG.game .debug) .debug rnd p1 p2 cfg o f) Stuck.sixes = .error .fuel := by
    unfold value
    rw [C57_endless .debug rnd h1 h2 cfg ho f]
    rfl
  obtain ⟨r, hr⟩ := endsBy_iff.1 hc
  have ht : value (play (G := BG.game .debug) .debug rnd p1 p2 cfg o f) t = .error .fuel := Eq.trans ht he
  rw [hr] at ht
  cases ht

theorem die_six : 5 ∈ (PMF.uniformOfFinset (Finset.range 6) Finset.nonempty_range_add_one).support :=
  (PMF.mem_support_uniformOfFinset_iff _ _).2 (by decide)

example (f : Nat) : 0 < iid (PMF.uniformOfFinset (Finset.range 6) Finset.nonempty_range_add_one)
    (EndsBy .debug id randomPlayer randomPlayer demoConfig demoOrders f)ᶜ :=
  C120_unbounded _ rfl rfl _ demoOrders_valid die_six f

end DieE.Props.Tl
