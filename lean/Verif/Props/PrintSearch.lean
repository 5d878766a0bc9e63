import Verif.Props.PrintActions
import Verif.Props.Mcts
import Verif.Mcts.Batch
import Verif.Props.Report

/-!
# C117: the trees of the searches are printed completely
-/

namespace DieE.Props.Pn
open DieE DieE.Text DieE.Mcts DieE.Props.Pr DieE.Props.S
open DieE.Train (Name digits)
variable {G : Game} {Fl : Floats}

theorem Anc.below {st : Store G Fl} (w : WellFormed st) {i k : Nat} (h : Anc st i k) : ∃ d, d ≤ k ∧ Below st i d k := by
  induction h with
  | refl => exact ⟨0, Nat.zero_le _, .refl⟩
  | step h1 h2 _ ih =>
    obtain ⟨d, h3, h4⟩ := ih
    have := (w.up _ _ _ h1 h2).1
    exact ⟨d + 1, by omega, .step h1 h2 h4⟩

/-- C117: printed from the root, with enough levels, the tree of a search is shown with all its nodes. -/
theorem C117_search {fm : Formats G Fl} (hf : Clean fm) {state : G.S} {player : Int} {iterations limit : Nat} {st : Store G Fl}
    {tr : List Nat} {t t' : Tape} (h : buildTree Fl state player iterations limit t = .ok ((st, tr), t')) {depth : Nat}
    (hd : st.length ≤ depth + 1) : ∃ txt, prettyPrint fm st 0 depth = .ok txt ∧ ShowsTree fm st 0 depth (readRows txt) ∧
      ((readRows txt).map TreeRow.number).Perm (List.range st.length) := by
  obtain ⟨v, -, -⟩ := buildTree_inv h
  obtain ⟨txt, h1, h2⟩ := C117_tree hf v.wf v.root depth
  refine ⟨txt, h1, h2, ?_⟩
  refine (List.perm_ext_iff_of_nodup h2.once List.nodup_range).2 fun k => ?_
  rw [List.mem_range]
  constructor
  · intro hk
    obtain ⟨x, hx, rfl⟩ := List.mem_map.1 hk
    obtain ⟨n, u, h3, -⟩ := h2.columns x hx
    exact (List.getElem?_eq_some_iff.1 h3).1
  · intro hk
    obtain ⟨d, h3, h4⟩ := Anc.below v.wf (v.conn k hk)
    obtain ⟨x, hx, -, rfl⟩ := (h2.nodes d k).2 ⟨by omega, h4⟩
    exact List.mem_map.2 ⟨x, hx, rfl⟩

/-- C117: the trees of the batched search are printed one by one. -/
theorem C117_batch {fm : Formats G Fl} (hf : Clean fm) {net : Net Fl} {order : List Nat} {states : List G.S} {iterations : Nat}
    {st st' : Store G Fl} {t t' : Tape} (ho : order.Perm (List.range states.length))
    (h : alphaMctsParallel net order states iterations st t = .ok (st', t')) {r : Nat} (hr : r < st'.length) (depth : Nat) :
    ∃ txt, prettyPrint fm st' r depth = .ok txt ∧ ShowsTree fm st' r depth (readRows txt) :=
  C117_tree hf (alphaMctsParallel_forest ho h).wf hr depth

/-! ## The texts of the actions -/

theorem ttt_debug_clean (a : Option Nat) : '\n' ∉ TTT.debugMove a ∧ '\t' ∉ TTT.debugMove a := by
  cases a with
  | none => decide
  | some n =>
    simp only [TTT.debugMove, List.mem_append, not_or]
    exact ⟨⟨⟨by decide, digits_not (by decide)⟩, by decide⟩, ⟨by decide, digits_not (by decide)⟩, by decide⟩

theorem bg_debug_clean (a : Option (List BG.Act)) : '\n' ∉ BG.debugMove a ∧ '\t' ∉ BG.debugMove a := by
  cases a with
  | none => decide
  | some l =>
    have h : ∀ c ∈ ['\n', '\t'], c ∉ join (lit ", ") (l.map BG.debugAct) := by
      intro c hc
      refine not_mem_join ?_ fun x hx => ?_
      · revert c; decide
      · obtain ⟨a, -, rfl⟩ := List.mem_map.1 hx
        intro h
        have := debugAct_chars h
        clear h
        revert this
        revert c
        decide
    simp only [BG.debugMove, List.mem_append, not_or]
    exact ⟨⟨⟨by decide, h _ (by simp)⟩, by decide⟩, ⟨by decide, h _ (by simp)⟩, by decide⟩

/-- Formats for the integers of the example. -/
def demoFormats : Formats (TTT.game .debug) demoFloats where
  action := TTT.debugMove
  two := writeInt
  three := writeInt
  five := writeInt

theorem demo_clean : Clean demoFormats :=
  ⟨ttt_debug_clean, fun a => ⟨(writeInt_plain a).1, (writeInt_plain a).2.1⟩, fun a => ⟨(writeInt_plain a).1, (writeInt_plain a).2.1⟩,
    fun a => ⟨(writeInt_plain a).1, (writeInt_plain a).2.1⟩⟩

example : lateRun.toOption.bind (fun r => (prettyPrint demoFormats r.1.1 0 1).toOption) =
    some (lit ("[0] Action: None \t\tVisits: 5.00 \tValue: 4 \tUCB: 1000000 \tWin_Pct: 0\n" ++
      "  [1] Action: Some(8) \t\tVisits: 1.00 \tValue: 0 \tUCB: 2 \tWin_Pct: 0\n" ++
      "  [2] Action: Some(7) \t\tVisits: 4.00 \tValue: 4 \tUCB: 9 \tWin_Pct: 1\n")) := by decide +kernel

/-- The number between `=` and `>` in a text. -/
def sizeShown (txt : Name) : Option Nat := natValue (((txt.dropWhile (· != '=')).drop 1).takeWhile (· != '>'))

/-- C117: the text of a store shows the number of its nodes. -/
theorem C117_store (st : Store G Fl) : sizeShown (displayStore st) = some st.length := by
  have h : ((displayStore st).dropWhile (· != '=')).drop 1 = digits st.length ++ ['>'] := rfl
  have hd : ∀ c ∈ digits st.length, (c != '>') = true := fun c hc => by
    rw [bne_iff_ne]
    rintro rfl
    exact absurd (digits_isDigit hc) (by decide)
  unfold sizeShown
  rw [h, List.takeWhile_append_of_pos hd]
  simp [Rp.natValue_digits]

end DieE.Props.Pn
