import Verif.Train.Disk
import Verif.Props.Learn

/-!
# C122: unreadable training data

The train command drops the result of `get_all_paths_rec` (main.rs:189).
-/

namespace DieE.Props.Dk
open DieE DieE.Mcts DieE.Train
variable {Fl : Floats} {W : Type}

/-- What there is to see below a directory. -/
inductive Sight where
  /-- a directory with data -/
  | data (p : List Name)
  /-- a directory or an entry that cannot be read -/
  | unreadable
  /-- a name that is not valid Unicode -/
  | odd

mutual

/-- All that there is below a path, in the order of the directories. -/
def sights : List Name → Disk → List Sight
  | _, .file _ => []
  | _, .locked _ => [.unreadable]
  | p, .dir es => sightsIn p es

/-- The same for the entries of a directory. -/
def sightsIn : List Name → Items → List Sight
  | _, .nil => []
  | p, .entry n d es => (if containsSp n then [.data (p ++ [n])] else sights (p ++ [n]) d) ++ sightsIn p es
  | p, .broken es => .unreadable :: sightsIn p es
  | p, .odd _ es => .odd :: sightsIn p es

end

/-- The walk up to the first sight that is not data. -/
def upTo : List Sight → Res (List (List Name) × Bool)
  | [] => .ok ([], true)
  | .data p :: l => do
    let (ps, ok) ← upTo l
    pure (p :: ps, ok)
  | .unreadable :: _ => .ok ([], false)
  | .odd :: _ => .error .unwrapNone

theorem upTo_append (l l' : List Sight) : upTo (l ++ l') = (do
    let (ps, ok) ← upTo l
    if ok then do
      let (ps', ok) ← upTo l'
      pure (ps ++ ps', ok)
    else pure (ps, false)) := by
  induction l with
  | nil =>
    simp only [List.nil_append, upTo, bind, Except.bind, if_true, pure, Except.pure]
    cases upTo l' <;> rfl
  | cons s l ih =>
    cases s with
    | data p =>
      simp only [List.cons_append, upTo, bind, Except.bind, pure, Except.pure] at ih ⊢
      rw [ih]
      cases upTo l with
      | error e => rfl
      | ok x =>
        obtain ⟨ps, ok⟩ := x
        cases ok
        · rfl
        · simp only [if_true]
          cases upTo l' <;> rfl
    | unreadable => rfl
    | odd => rfl

mutual

theorem walk_eq : ∀ (p : List Name) (d : Disk), walk p d = upTo (sights p d)
  | _, .file _ => by rw [walk, sights]; rfl
  | _, .locked _ => by rw [walk, sights]; rfl
  | p, .dir es => by rw [walk, sights]; exact walkIn_eq p es

theorem walkIn_eq : ∀ (p : List Name) (es : Items), walkIn p es = upTo (sightsIn p es)
  | _, .nil => by rw [walkIn, sightsIn]; rfl
  | _, .broken _ => by rw [walkIn, sightsIn]; rfl
  | _, .odd _ _ => by rw [walkIn, sightsIn]; rfl
  | p, .entry n d es => by
    rw [walkIn, sightsIn, walk_eq (p ++ [n]) d, walkIn_eq p es]
    split
    · rfl
    · rw [upTo_append]

end

theorem upTo_data (l : List (List Name)) : upTo (l.map .data) = .ok (l, true) := by
  induction l with
  | nil => rfl
  | cons p l ih => simp only [List.map_cons, upTo, ih]; rfl

/-- What the train command finds: the directories before the first one that cannot be read. -/
theorem walk_until {p : List Name} {d : Disk} {l : List (List Name)} {rest : List Sight}
    (h : sights p d = l.map .data ++ .unreadable :: rest) : walk p d = .ok (l, false) := by
  rw [walk_eq, h, upTo_append, upTo_data]
  simp [upTo, bind, Except.bind, pure, Except.pure]

mutual

theorem allPaths_sights : ∀ (p : List Name) (d : Disk), (∀ s ∈ sights p d, ∃ q, s = .data q) →
    sights p d = (allPaths p d.tree).map .data
  | _, .file _, _ => by rw [sights, Disk.tree, allPaths]; rfl
  | _, .locked _, h => by rw [sights] at h; obtain ⟨_, h⟩ := h _ List.mem_cons_self; cases h
  | p, .dir es, h => by
    rw [sights] at h ⊢
    rw [Disk.tree, allPaths]
    exact allPathsIn_sights p es h

theorem allPathsIn_sights : ∀ (p : List Name) (es : Items), (∀ s ∈ sightsIn p es, ∃ q, s = .data q) →
    sightsIn p es = (allPathsIn p es.trees).map .data
  | _, .nil, _ => by rw [sightsIn, Items.trees, allPathsIn]; rfl
  | _, .broken _, h => by rw [sightsIn] at h; obtain ⟨_, h⟩ := h _ List.mem_cons_self; cases h
  | _, .odd _ _, h => by rw [sightsIn] at h; obtain ⟨_, h⟩ := h _ List.mem_cons_self; cases h
  | p, .entry n d es, h => by
    rw [sightsIn] at h ⊢
    rw [Items.trees, allPathsIn, List.map_append, ← allPathsIn_sights p es fun s hs => h s (List.mem_append_right _ hs)]
    congr 1
    by_cases hn : containsSp n
    · rw [if_pos hn, if_pos hn]; rfl
    · rw [if_neg hn, if_neg hn]
      exact allPaths_sights _ d fun s hs => h s (List.mem_append_left _ (by rw [if_neg hn]; exact hs))

end

theorem find_tree (n : Name) : ∀ es : Items, (es.find n).map Disk.tree = ((es.trees).find? (fun e => e.1 = n)).map Prod.snd
  | .nil => by rw [Items.find, Items.trees]; rfl
  | .broken es => by rw [Items.find, Items.trees]; exact find_tree n es
  | .odd _ es => by rw [Items.find, Items.trees]; exact find_tree n es
  | .entry m d es => by
    rw [Items.find, Items.trees, List.find?_cons]
    by_cases h : m = n
    · simp [h]
    · simp only [h, if_false, decide_false]
      exact find_tree n es

theorem lookup_tree (p : List Name) (d : Disk) : (d.lookup p).map Disk.tree = d.tree.lookup p := by
  induction p generalizing d with
  | nil => cases d <;> rfl
  | cons n p ih =>
    have key : ∀ es : Items, ((es.find n).bind (Disk.lookup p)).map Disk.tree = Tree.lookup (n :: p) (.dir es.trees) := by
      intro es
      have h := find_tree n es
      rw [Tree.lookup]
      cases h1 : es.find n with
      | none =>
        rw [h1] at h
        cases h2 : (es.trees).find? (fun e => e.1 = n) with
        | none => rfl
        | some e => rw [h2] at h; cases h
      | some d' =>
        rw [h1] at h
        cases h2 : (es.trees).find? (fun e => e.1 = n) with
        | none => rw [h2] at h; cases h
        | some e =>
          rw [h2] at h
          obtain h : d'.tree = e.2 := Option.some.inj h
          show (d'.lookup p).map Disk.tree = Tree.lookup p e.2
          rw [← h]
          exact ih d'
    cases d with
    | file c => rfl
    | dir es => rw [Disk.lookup, Disk.tree]; exact key es
    | locked es => rw [Disk.lookup, Disk.tree]; exact key es

/-- If a directory or an entry below the selected directory cannot be read, the train command does not go on. -/
def C122_statement : Prop := ∀ (root : Disk) (run lrn sp : Option Name) (p : List Name) (d : Disk),
  dataPath run lrn sp = .ok p → root.lookup p = some d → .unreadable ∈ sights p d → ∃ e, trainingDisk root run lrn sp = .error e

/-- The train command uses the data before the first directory that cannot be read, and says nothing. -/
theorem C122_silent {root : Disk} {run lrn sp : Option Name} {p : List Name} {d : Disk} (hp : dataPath run lrn sp = .ok p)
    (hd : root.lookup p = some d) {l : List (List Name)} {rest : List Sight} (h : sights p d = l.map .data ++ .unreadable :: rest)
    {data : List (List Mem)} (hl : l.mapM (loadTrainingData root.tree) = .ok data) :
    trainingDisk root run lrn sp = .ok data.flatten := by
  unfold trainingDisk
  simp only [hp, hd, walk_until h, hl, bind, Except.bind, pure, Except.pure]

/-- If the selected directory itself cannot be read, the command succeeds and writes the weights untrained. -/
theorem C122_untrained {S : Setup Fl W} (hb : S.batch ≠ 0) {shuffle : List Mem → List Mem} (hs : ∀ l, (shuffle l).Perm l)
    {root : Disk} {run lrn sp : Option Name} {p : List Name} {es : Items} (hp : dataPath run lrn sp = .ok p)
    (hd : root.lookup p = some (.locked es)) (w : W) (ms : Models W) :
    trainDiskCommand S shuffle root run lrn sp w true ms = .ok (some w, ms) := by
  have h0 : trainingDisk root run lrn sp = .ok [] :=
    C122_silent hp hd (l := []) (rest := []) (by rw [sights]; rfl) (data := []) rfl
  unfold trainDiskCommand
  rw [h0]
  simp only [bind, Except.bind]
  rw [(hs []).eq_nil]
  have : train S.pf S.batch S.step [] w = .ok w := by
    unfold train batches assert
    rw [if_pos (by simpa using hb)]
    rfl
  rw [this]
  rfl

/-- A run with one learn iteration of two self-play iterations, and another run that cannot be read. -/
def demoDisk (b : Bool) (t : Tree) : Disk :=
  match t with
  | .dir [(n1, .file c1), (n2, .file c2), (n3, .file c3)] =>
    .dir (.entry (runName ['a']) (.dir (.entry (lrnName 0) (.dir (.entry (spName 0) (.dir (.entry n1 (.file c1)
      (.entry n2 (.file c2) (.entry n3 (.file c3) .nil)))) .nil)) .nil))
      (.entry (runName ['b']) (if b then .locked .nil else .dir .nil) .nil))
  | _ => .dir .nil

/-- C122 is false: nothing is reported even if no data at all can be read. -/
theorem C122_refuted : ¬ C122_statement := by
  intro h
  obtain ⟨e, he⟩ := h (.locked .nil) none none none [] (.locked .nil) rfl rfl List.mem_cons_self
  cases he

/-- The data of run `a` is used although run `b` cannot be read. -/
example : ((do
    let t ← saveTrainingData [D.demoMem 1 5, D.demoMem (-1) 7]
    let l ← trainingDisk (demoDisk true t) none none none
    pure (l.map Mem.outcome) : Res (List Int))).toOption = some [1, -1] := by decide +kernel

/-- A name that is not valid Unicode is reported by a panic, unless there is something unreadable before it. -/
theorem C122_odd {root : Disk} {run lrn sp : Option Name} {p : List Name} {d : Disk} (hp : dataPath run lrn sp = .ok p)
    (hd : root.lookup p = some d) {l : List (List Name)} {rest : List Sight} (h : sights p d = l.map .data ++ .odd :: rest) :
    trainingDisk root run lrn sp = .error .unwrapNone := by
  unfold trainingDisk
  simp only [hp, hd, walk_eq, h, upTo_append, upTo_data, upTo, bind, Except.bind, if_true]

/-- Missing or unreadable files in the directories found are reported by a panic. -/
theorem C122_files {root : Disk} {run lrn sp : Option Name} {p : List Name} {d : Disk} (hp : dataPath run lrn sp = .ok p)
    (hd : root.lookup p = some d) {l : List (List Name)} {ok : Bool} (hw : walk p d = .ok (l, ok)) {q : List Name} (hq : q ∈ l) {e : Panic}
    (he : loadTrainingData root.tree q = .error e) : ∃ e, trainingDisk root run lrn sp = .error e := by
  have : ∀ l : List (List Name), q ∈ l → ∃ e, l.mapM (loadTrainingData root.tree) = .error e := by
    intro l
    induction l with
    | nil => exact fun h => nomatch h
    | cons x l ih =>
      intro h
      rw [List.mapM_cons]
      rcases List.mem_cons.1 h with rfl | h
      · rw [he]; exact ⟨e, rfl⟩
      · cases loadTrainingData root.tree x with
        | error e => exact ⟨e, rfl⟩
        | ok a =>
          obtain ⟨e, he⟩ := ih h
          rw [he]
          exact ⟨e, rfl⟩
  obtain ⟨e, he⟩ := this l hq
  unfold trainingDisk
  simp only [hp, hd, hw, he, bind, Except.bind]
  exact ⟨e, rfl⟩

/-- If everything below the selected directory can be read and all names are valid Unicode, the data is that of the model
without failures, to which C50, C51, C66 and C88 apply.  Missing for the full statement: directories that cannot be
read, for which it is false. -/
theorem C122_partial {root : Disk} {run lrn sp : Option Name} {p : List Name} {d : Disk} (hp : dataPath run lrn sp = .ok p)
    (hd : root.lookup p = some d) (h : ∀ s ∈ sights p d, ∃ q, s = .data q) :
    trainingDisk root run lrn sp = trainingData root.tree run lrn sp := by
  have ht : root.tree.lookup p = some d.tree := by rw [← lookup_tree, hd]; rfl
  unfold trainingDisk trainingData
  simp only [hp, hd, ht, bind, Except.bind]
  rw [walk_eq, allPaths_sights p d h, upTo_data]

/-- The hypotheses of `C122_partial`. -/
example : ((do
    let t ← saveTrainingData [D.demoMem 1 5, D.demoMem (-1) 7]
    pure ((sights [] (demoDisk false t)).map fun s => match s with
      | .data q => some q
      | _ => none) : Res (List (Option (List Name))))).toOption = some [some [runName ['a'], lrnName 0, spName 0]] := by decide +kernel

end DieE.Props.Dk
