# Formal model of die-e in Lean 4: design

Source: `/repo` (Rust, alibasaran/die-e). Model and proofs: `/verif/lean/Verif`. Nothing of the Rust code is run;
the tie between model and code is the line citation on every definition.

## 1. Trusted base

* Lean 4.33 kernel. Axioms: only `propext`, `Classical.choice`, `Quot.sound`; `AXIOMS.md` lists them per theorem
  (from `#print axioms`). No `sorry`, no own axioms, no `native_decide`/`bv_decide`. Mathlib is used for lemmas on lists,
  rational and real numbers only.
* The reading of the Rust code into Lean definitions (each definition cites file and lines).
* The meaning given to library calls that are not part of the repository:
  * machine integers: `i8`, `u8`, `u32`, `usize` are Lean `Int`/`Nat` values with an explicit range check after each
    operation; overflow panics in the debug profile and wraps in the release profile (`Profile`); `usize` has 64 bits;
  * `slice[i]` / `a..b` out of range panics; `unwrap`/`expect` on `None` panics; `assert!` panics;
  * `sort_unstable` + `dedup` on `(i8,(i8,i8))` = lexicographic sort + removal of adjacent equal entries;
  * `HashSet::insert` returns whether the value was new; `HashMap`/`HashSet` iteration order is arbitrary but
    stable between modifications (theorems quantify over the order);
  * `rand`: every draw is taken from an arbitrary infinite tape of numbers; `gen_range(1..=6)` is in 1..6,
    `choose` returns some element (None on the empty slice), `WeightedIndex` panics if no weight is positive (or one is
    negative) and otherwise returns an index of positive weight; `Dirichlet::new` needs at least two entries and a
    positive parameter. Theorems quantify over all tapes;
  * floats, four views, each said at the definition:
    * `f32` visit counters: naturals, exact up to 2^24, where `+ 1.0` no longer changes the value (`vinc`);
    * `Floats` / `Net` / `Arith`: abstract operations, theorems hold for every interpretation (so for `f32` with rounding,
      NaN and infinities);
    * exact numbers (`Val` = rational or NaN, `Rat`, `Real`) where a property is about sums or positivity: visit shares
      (C39), priors (C44), sampling (C40), outputs of the network (C69); underflow is not modelled there, except that of
      the powers of visit shares (C64, C81). Shares and priors in `f32`, for every order of adding up: C136. The win rate of
      the model gate (C52) is `Rounding`: any monotone rounding with absolute error at most 2^-53 on [0, 1];
    * `Fp/Round`, `Fp/Num`: IEEE single and double precision, rounded to nearest even; C100 shows that they meet what the
      abstract views assume (C77, C80 and C52 hold in `f32`/`f64`);
  * `tch` tensors: shape plus entries by multi-index; `stack`, `cat`, `view`, `permute`, `squeeze`, `squeeze_dim`, `get`,
    `double_value`, `index_put` as documented by libtorch, with their error conditions (`Panic.tensorError`);
  * `tch::nn` 0.13: `Path::add` appends `__<number of variables>` to a name already in use; `VarStore::save` writes all
    named variables; `VarStore::load` looks up every variable *of the store* by name in the file, fails if one is missing,
    and copies in place (`copy_`, shapes broadcast); layers share storage with the store; `conv2d`, `batch_norm2d`
    (evaluation: running statistics; training: statistics of the batch, at least two values per channel), `linear`,
    `softmax`, `flatten` with their usual definitions, sums taken in a fixed order;
  * `config`: a map from keys to `i64`/`f64`, nothing for missing or unconvertible values;
  * `clap` 4 (derived parser, default settings): which words are options, values and commands; `rayon`: 0 threads means
    one for each CPU;
  * files: a directory is a tree of names; writing succeeds, files are read back as written; `nanoid` run ids are
    arbitrary distinct strings.

## 2. What is modelled, what is not

| Rust | Lean module | Modelled |
|---|---|---|
| `src/backgammon/backgammon_logic.rs` | `Backgammon/Model`, `Backgammon/Tensor` | all of the game logic, encode/decode, as_tensor. Its printed text is in `Text/Pretty`, that of `ActionNode` in `Mcts/Print` |
| `src/backgammon/encoding.rs` | `Backgammon/Encoding` | the inherent encode/decode, separately from the trait copy |
| `src/base.rs` | `Game` | the `LearnableGame` trait as a structure of functions, both implementations |
| `src/tictactoe/mod.rs` | `TicTacToe/Model`, `Text/Pretty` | everything |
| `src/mcts/node.rs`, `node_store.rs`, `simple_mcts.rs` | `Mcts/Model`, `Mcts/Print` | everything |
| `src/mcts/alpha_mcts.rs`, `utils.rs`, `noise.rs` | `Mcts/Alpha` (control flow, bookkeeping, shapes), `Mcts/Probs` (exact values), `Fp/Shares` (in `f32`) | everything except progress bars |
| `src/alphazero/alpha_parallel.rs`, `alpha_no_parallel.rs` | `Train/SelfPlay` (self-play loops), `Train/Data` (directories), `Train/Learn` (whole runs) | self-play, labelling, saving, training runs. There, the step on a batch is an arbitrary function of weights and batch; C110 puts in the one of `Train/Adam` |
| `src/alphazero/alphazero.rs` | `Train/Data` (batches, save, load), `Train/NextMove`, `Train/Loss` (the loss of `train`, over the reals), `Train/Adam` (the update of the variables), `Net/Model` (`AlphaZero::new`), `Config` | everything. Gradients are arbitrary |
| `src/alphazero/alpha_versus.rs`, `src/versus.rs` | `Versus/Model`, `Train/Learn` (files of models) | `play`, `get_actions_for_player`, the model gate |
| `src/versus.rs` (`Game`, `Turn`, `Agent`, `save_game`, `load_game`, `load_all_games`, `print_game`), `src/main.rs` (Play) | `Versus/Saved` | the derived serializers, files, which positions are printed (their text is in `Text/Pretty`) |
| `serde_json` | `Text/Json` | `to_string_pretty` and `from_reader` on characters. Of floats only the syntax: they are rejected in typed fields and accepted in skipped ones. Not: the nesting limit of 128, lone surrogates in skipped fields (which are accepted there) |
| `src/alphazero/nnet.rs` | `Net/Model` | variables, layers, evaluation, `from_path` |
| `src/main.rs`, `src/lib.rs` | `Train/Data` (path selection, directory walk), `Train/Learn` (train command), `Config`, `Cli/Model` (command line, threads), `App/Main` (`main`, play, replay: files and output), `App/Session` (learn and train with their files and output) | Not: messages of clap |
| `rand::distributions::WeightedIndex` | `Mcts/Draw` | `new` and `sample` over an ordered field, the binary search; the model of the searches uses the coarser `weightedSelect` of `Mcts/Probs`, shown to have the same outcomes (C98) |
| `f32`, `f64` | `Fp/Round`, `Fp/Num` | formats, rounding to nearest even with gradual underflow, overflow to infinity, NaN; the formulas of `node.rs` in single precision (`single`). Not: the sign of zero; `ln` is any function, its accuracy a hypothesis where needed |
| `Display` of `f64`, `PlayResult` | `Text/Float`, `Versus/Report` | shortest decimal number that reads back as the same float, written without exponent; the text of a result |
| `main`, `handle_command` (play, replay) | `App/Main` | paths, files, standard output; learn, train, the TOML parser and the network format are parameters |
| `rand` 0.8 `WeightedIndex`, `UniformFloat` | `Fp/Draw` | `WeightedIndex::new`, `sample` and the uniform distribution below them in `f64`, with the loop that reduces the scale; used for C107 |
| `tch` `nn::Adam`, `batch_norm2d` in training mode | `Train/Adam` | the step of the optimizer with weight decay, running statistics with momentum 0.1 (unbiased variance); over exact reals, gradients are arbitrary |
| (specification) | `Net/Textbook` | specification of the residual network over functions `channel, row, column`, independent of the model |
| `alpha_mcts_parallel` | `Mcts/BatchWon` | nodes off the selected paths, values of unfinished nodes, for C116 |
| node_store.rs:67-95, backgammon_logic.rs:21-53 | `Mcts/Print` | the printed trees; the text is what is written if printing returns; `{:.2}` etc. of an `f32` are parameters |
| specification | `Text/TreeSpec` | how a printed tree is read |
| specification | `Net/BookLoss` | the loss of a batch as a formula, units at the kink of the rectifier |
| `versus.rs` | `Versus/Tail` | matches that are not over after a given number of rounds: one game only passed since the round limit, and the position on the tape is bounded |
| `versus.rs` (rayon) | `Schedule`, `Versus/Short` | parallel runs of computations that read random numbers; searches and matches with bounded rounds as trees of reads |
| `main.rs` 172-231 | `Train/Disk` | `get_all_paths_rec` and the train command on a file system with unreadable directories and entries and names that are not Unicode |
| `versus.rs` 160-320 | `Versus/Solo` | the game played alone and what remains of each game while the match is played; `Joint`: independent computations |
| `tictactoe/mod.rs` 36-79 | `TicTacToe/Count` | counting the orders in which the cells can be filled, by result |
| `mcts/*.rs` | `Mcts/Room` | number of nodes, of entries and of levels of the trees |
| `rand` 0.8 `gen_range`, `choose`, `shuffle` | `Rand` | `sample_single_inclusive` on 32-bit words with its rejection loop; the rest of the model reads a remainder of an arbitrary number instead, C126 shows that both have the same distribution |
| `mcts/simple_mcts.rs`, `node.rs` | `Mcts/Twin` | the plain search on positions with exchanged players |
| node.rs, simple_mcts.rs | `Mcts/Even` | the tree of a search as long as no position in it is final: children visited in turn |
| alpha_parallel.rs, alpha_versus.rs | `Train/Output` | what `learn` prints, on two streams |
| `main.rs:119-122, 166-207`, `alphazero.rs:82-127` | `App.Session` | learn and train with files and output, the program run several times |
| - | `App.SessionSpec` | what is kept between runs |
| (randomness) | `Prob` | distribution of the results of a computation on a tape of independent identically distributed numbers, for C115 |
| (randomness) | `Luck` | measures on the sequences of random numbers, for C96 |
| `tests/*.rs` | `Tests/Repo` | The repository's unit tests run on the model (`decide +kernel`): checks of the fidelity of the model, not proofs of properties |

Not modelled anywhere: GPU/libtorch numerics, wall-clock, progress bars, file-system failures other than those of C122. The parallel maps are
modelled as sequential ones: the one in `main.rs` is pure per element, and for those of `versus.rs` C121 shows that the
schedule does not change the distribution of the results.

Probability: all randomness of a run is one infinite sequence of numbers (`Tape`), and theorems quantify over all of them.
`Luck` and C96 put a measure on these sequences: a die is `r % 6 + 1` of the next number, a uniform choice is `r % len`, and
the measure may be anything in which each residue mod 6 of the next number has conditional probability at least some
`ε > 0` given the numbers before (`Lively`), so numbers used for other things need not be independent or uniform.

History variables: `Versus/Model` carries `turns` and `steps` (what happened so far) beside the values of the program;
they are written, never read, by the loop. `Mcts/BatchVisits` and the self-play files do the same for traces.

## 3. Conventions

* `Res α = Except Panic α`: a panic is data. `M α` adds the tape of random numbers. Functions mutating `&mut self`
  return the new value.
* Recursion of the Rust code that is not structural (`_get_action_trees`, `select_leaf_node`, `backpropagate`, the match
  loop) takes a fuel argument; running out of fuel is a separate `Panic.fuel` value. For move generation
  and the searches theorems show it is never produced, which is the termination claim. For the match and self-play loops
  fuel counts rounds; there `.error .fuel` for every fuel means the loop does not end, and C57 proves that this happens.
* Specifications (`*/Spec.lean`, `Train/DataSpec.lean`, and the small definitions beside the theorems in `Props`) are
  written over plain data and do not use the model's functions.
* Property theorems live in `Verif/Props/*.lean`, with a non-vacuity `example` beside each; helper lemmas elsewhere.
* A property the code violates is handled by: a theorem `..._refuted` with a concrete witness (negation of the full
  statement), and `..._partial` theorems giving the strongest version found that holds.

## 4. Per property

| id | approach |
|---|---|
| C01 | invariant "15 checkers each, counts non-negative" by induction over histories (`Reach`), one-step lemma on `getNextState` |
| C02 | on invariant states each model function returns `ok`, for both `Profile`s with the same value |
| C03 | direct case analysis for one step, then induction over histories with the last two movers recorded |
| C04-C07 | membership in `getValidMoves` implies a chain of `Spec` single-checker steps (soundness), read off rule by rule |
| C08 | false when opposing checkers stand in the home board: witness; `C08_in_play`: such a position occurs in a game (`Backgammon/Script`); partial theorem under "no opposing checker in the home board" |
| C09 | completeness: each spec step is generated (no side condition), hence each two-step play's board is represented |
| C10 | list lemma on `removeDuplicateStates` for arbitrary input |
| C11 | leaf of an action tree = no generated move for the remaining dice |
| C12 | false: witness, also in a game (`C12_in_play`); the partial version is C11 |
| C13 | false: witness, also in a game (`C13_in_play`); partial from soundness/completeness of single steps |
| C14 | the model normalises the dice order; all profiles and boards |
| C15 | C04-C09 combined to a set equality |
| C16 | pointwise description of the new board, frame condition |
| C17 | pip count as a sum, difference of one update |
| C18 | definition + invariant over histories |
| C19-C21 | arithmetic case analysis of the flag logic against the spec of die use |
| C22 | functional equality of the two models, all inputs |
| C23, C30 | tensor as data; injectivity (C30 false for the player: witness, partial for the board; in games exactly the starting player is missing, `C30_in_play` over `Hist`) |
| C24 | invariant over single checker moves |
| C25 | false in general: witness, also in a game (`C25_in_play`); partial under "no opposing checker in either home board"; the exact difference for one checker move (`C25_steps`): only player `-1` bears off with a larger number than needed while the point at that distance is freed |
| C26-C29 | invariants over histories; `decide` only for the finite table of lines, lifted |
| C31, C36 | store invariant preserved by each iteration for an arbitrary game structure |
| C32 | proved for TicTacToe; false for Backgammon (non-terminal position without moves): witness theorem |
| C33 | false: every rollout from a non-terminal node yields 0 |
| C34, C35 | path-sum lemma on `backpropagate`, induction over iterations |
| C37 | `max_by` model returns a maximum |
| C38, C63 | store invariant (`Forest`) for the batched search; progress |
| C39, C44 | exact rational arithmetic |
| C40 | C20 + support of the weights |
| C41 | false: witness execution; partial: holds in an iteration in which no selected leaf is terminal, and for batches of one game |
| C42 | commutation of updates of disjoint trees |
| C43 | false: the panic conditions are theorems; each step alone on a well-formed tree (`Props/Single`) |
| C45-C48, C64 | model of the loops, induction over rounds; C45-C47 have witnesses of violation |
| C49 | tensor shapes; holds for two or more fragments, false for one |
| C50, C51, C66 | directory tree as data; multiplicity theorem; C50, C51, C66 false |
| C52 | monotone rounded division, k/400 compared to the threshold |
| C53-C58, C67 | invariant of the match loop for all orders and tapes; C56, C57 false with witnesses |
| C59 | every layer as a function with shape checks; variables found by name, names never clash |
| C60 | false: theorem on the conversion |
| C61 | false: loading into an empty store does nothing |
| C62 | layout of the store independent of the values; lookup by name in any order |
| C65 | rows of stacked tensors |
| C68 | a relation "row j is row k" kept by every layer in evaluation mode |
| C69 | real numbers: softmax and tanh |
| C70 | exact description of the sums modulo 256; false in general |
| C71, C72 | a printer and a parser of JSON; the parser inverts the printer; derived encoders and decoders field by field |
| C73 | false: the position printed is an invariant of the loop |
| C74 | the parser does not accept a proper prefix of the text of an object |
| C75, C76 | case analysis of the command; C76 false: the first round of the match panics |
| C77 | a relation between visits and value kept by every step of the searches; `Rounded`: monotone rounding, exact on integers up to 2^24 |
| C78 | false: witness run; exact bookkeeping of an iteration |
| C79 | false: witness run; selection returns a maximum of the score |
| C80 | false: witness run; values of the root's children (won: value = visits, others less), race between the root's children; `realFloats`: the formulas over the reals |
| C81 | false: witness run at temperature 0.005; `Pow32`: powers rounded to f32 as far as zero is concerned; the largest of N shares is at least 1/N |
| C82 | Gibbs' inequality for the policy part, squares for the value part; the loss is computed from the logits of `forward_train`, the statement is about the policy that `forward_t` returns |
| C83 | false: witness run with the power 2 (temperature 1/2); partial: support, positivity, and the power 1 |
| C84 | inversion of the run into its iterations; `Steps` and `Epoch` (`Train/LearnSpec`) say what training is |
| C85 | false: run without the model directory; partial: induction over the iterations, `Best` is the history of the best model |
| C86 | induction over the iterations; false for the two other ways to train: witness runs with a step that gives NaN |
| C87 | self-play returns at least one fragment since the first player has a move and the largest share does not vanish; false: witness run at temperature 0.005; Backgammon with probability one: self-play and matches leave a tail of the random numbers, on which C96 applies again |
| C88 | inversion of the command; C51 for the untrained case |
| C89, C90 | a reader of tables of text (split into lines and columns) inverts the printer; the sign, the rows and the number of further checkers determine a point |
| C91 | false since C43 is; the selection is legal for any search that would return, by C40's argument |
| C92 | the parser against a relation that says how options are written, in any order (`Cli/Spec`) |
| C93 | false: evaluation of the parser on the four examples, C92 turns this into a statement about every meaning |
| C94 | case analysis; false for 0 |
| C95 | the least advanced occupied point of a side: either the side moves from it with some die, or the other side has a checker that is not blocked (`Backgammon/Alive`) |
| C96 | an endless match consists from the round limit on of passes in one position, each of which draws a bounded number of random numbers (`Versus/Sure`, `Versus/Thrift`); almost every random sequence contains arbitrarily long blocks of every die (`Luck`); in a long enough block of the die that C95 gives, the player that C95 gives has its turn and cannot pass |
| C97 | membership in the generated checker moves is equivalent to the changed rules; induction over plays |
| C98 | `WeightedIndex` and its binary search over an ordered field; intervals of the running totals; Lebesgue measure; limits of powers |
| C99 | invariant over the iterations: between any two children of the root, the last time the first was preferred the scores bound the ratio of the visits; pigeonhole for a child with N/d visits |
| C100 | rounding to nearest even as a computable function over any ordered field with floor; relative and absolute error bounds; `singleRounded`, `singleArith`, `C100_gate`: f32/f64 satisfy what C77, C80, C52 assume; infinities and `NaN` against the extended reals (`C100_compare`, `C100_add`, `C100_mul`, `C100_div`, `C100_sqrt`); `select_win_pct` finds a best mean up to `2 ^ -23` (`C100_win_pct`) |
| C101 | false: two roundings (`winrate`, `winrate * 100.`) and the shortest decimal text; all 401 numbers of wins evaluated by the kernel; the text read back by an independent reader |
| C102 | `main` composed of the command line (C92), the match (C53), the report (C101), the saved games (C71) and the boards (C89, C90); a path is a list of names, the file system a function of paths |
| C103 | as C99, for the score `v/n + c (√p/(n+1)) q` of the batched search; visits to stale nodes (C41) are counted apart from selections; in `f32` each score is within 1/128 of the formula |
| C104 | 170 iterations computed in the kernel with interval scores (`Props/Calc`, `Props/CalcScore`), then an invariant on ten nodes: children without wins get visits only logarithmically often; `Forces` is a separate definition of forcing a win |
| C105 | gaps between floats (`gap_above`, `gap_below`), so that 17 digits suffice; monotone rounding makes the two neighbours with n digits the only candidates; strings of digits without superfluous zeros are determined by their value |
| C106 | `Line`: nodes reached by the same moves are the same; `Rolls` says how the rolls in a tree came out, and an invariant on the visits of the two root children (`Count`) follows for every such tree; `M.Free` shows that random numbers with such rolls exist for each number of iterations; the value of the two moves over all rolls is computed in the kernel for the 21 rolls up to order |
| C107 | running totals in `f64` are monotone and within `i` roundings of the exact ones; `below` is the number before the total; the drawn number is always below the total; counting the `2^52` points below a number of the format |
| C108 | the ratio of the first moment squared to the second one is bounded by Cauchy-Schwarz, kept as an invariant `Inv` of a step; gradients growing like 1.11^i attain it |
| C109 | closed form of the first step without gradient; every entry of a trainable variable follows `follow` (`C109_follow`); later steps: large weights shrink in every step (`C109_partial`, `C109_large`), and every weight ends up small (`C109_eventually`) |
| C110 | names of running statistics begin with `running_`, those of trainable variables do not; a forward pass in training mode changes only the former and does not read them (`Tracked`), the optimizer only the latter |
| C111 | simulation: an injective map of nodes from the tree of a search alone into the store of the batch (`Copy`), kept by every phase of an iteration; for equal positions the selected leaves agree, so the phases run in step |
| C112 | the same simulation under the hypothesis `InStep`; a two-game batch in which an iteration is lost refutes the general claim.  With dice (`Mcts/CopyBack.lean`, `Props/ApartDice.lean`) the simulation runs from the batch to the games: every expansion in the batch is one of the game alone on the same piece of the random stream, and since every part of the search reads finitely many numbers (`Short`), the pieces of one game can be put together to a stream for its search alone |
| C113 | root priors followed through the whole batched search (`root_priors`), the weight of the noise computed exactly over the rationals; mean by the tangent of a concave function over any probability space; in `f32` from the error bounds of C136 (`C113_single_partial`) |
| C114 | layer by layer: a tensor `Holds` a family of images; each layer of the model maps what it holds as the formula of `Net/Textbook.lean` does; sums by `Finset.sum`, rows of a batch from `batch_rows` (C68) |
| C115 | `Prob`: decision trees (`Prog`) of computations that read finitely many numbers, their distribution as a `PMF`, shown equal to the probability under the product measure on tapes (`run_prob`); a rollout of an undecided position has the law of `pure 0`, and laws compose along `bind` (`Same.bind`) |
| C116 | the real number formula of the score; `Mcts/BatchWon`: what an iteration does to a node off all selected paths, and invariants of the values of visited unfinished nodes; `Grab`: selections of every root child, compared with those of the winning one; `Lost`: the two-game run in which the losing move is visited in each of nine iterations |
| C117 | reader of the text in `Text/TreeSpec` (indentation, brackets, tabs; arms and strokes); `Print`: the lines are a walk through the tree, its levels, order and parents; `PrintActions`: strokes and injectivity by mutual induction; `PrintSearch`: the stores of both searches |
| C118 | loss of a batch and `Smooth` by formula in `Net/BookLoss`, `IsGradient` (directional derivatives) in `Descent`; `Smooth` (module): the loss is differentiable in the weights; `DescentNet`: model = formula (C114), running statistics have no influence, gradient by the chain rule; the first Adam step has a negative directional derivative; refutations with a store of one number in `DescentEx` |
| C119 | `Turn` (two half-turns or passes) against `Play` with four dice and `Longest`; moves with equal dice commute and stay legal (`stays`, `commute`), so all complete plays have the same length (`longest`); C15 for each half |
| C120 | `length` (infimum of the numbers of rounds after which `play` returns a result, infinite if there is none) and its expectation; `unlucky` dice; the argument of C96 with finitely many rounds (`Versus/Tail`, `no_long_passing`) |
| C121 | `Par` (trees of reads in which at every point any unfinished computation reads the next number), `Scheduled`, `InParallel`; `Like` compares distributions of results; the sequential model is one such run |
| C122 | `sights` (everything below a path in directory order: data, unreadable, odd names), independent of the control flow of `walk`; refuted; `C122_partial` when all can be read |
| C123 | `alone` (one game played from its initial state to its end, without map, rounds and removal), product of the probabilities; `kind` of a game and sum over all lists of results for the wins |
| C124 | probabilities as numbers (`share`), `average` is an integral over all runs; `fate` counts orders of cells and is only used in the proof |
| C125 | `Depth` counts the nodes up to the root by following `parent`; `Recursion`: the functions with the bounded recursion agree with the ones of the search |
| C126 | `iid uniform` is the product measure on sequences of 32-bit words; `Ran` relates the words read to the result; the results of `C126_dice`, `C126_choose`, `C126_shuffle` are plain fractions |
| C127 | `opposite`: the marks and the player to move negated; both sides of the theorems are probabilities of sets of pairs of win counts |
| C128 | the list of the actions of each recorded game, and the numbers of the result returned by `play` |
| C129 | the move returned by `mctSearch` is compared with the list of legal moves; forced wins are defined by the rules of the game alone (`Forces`) |
| C130 | the standard output is read line by line (`readOut`), the messages above the bars by `verdictIn`; the matches of a run are given by `Matches`, which refers to the games played |
| C131 | the id is read from the standard output with `entry`; the command lines are judged by `parseArgs`, the data by `trainingData` on any tree that holds the directory of the run |
| C132 | the match and its games played alone are compared through the product measure; `expected` is defined from the games played alone, `C132_game` shows that it is the expectation in the match |
| C133 | read by `entries` and `words` of `App/ReplaySpec`, which do not use the printer; `C133_determines` is injectivity of what is read |
| C134 | `Session` is a list of runs of `invoke` on one world; what is kept is said by `held`, `Stores`, `Writes` of `App/SessionSpec`; `C134_runs` is a session meeting the hypotheses |
| C135 | the weight plus the distance its momentum can still carry it (`carried`) does not grow above `B`; `C109_partial`, `C109_large`, `C109_eventually` are consequences |
| C136 | induction over the order of adding up (`SumTree`): a rounded sum of non-negative numbers is at least its largest entry; tiny sums are exact, so each addition of two non-zero entries has a relative error of at most `2^-24`; for finished searches the children of a root have at most two visits per iteration (`search_children`) |
| C137 | invariant over the iterations of the batched search: `max_by` returns the last child if no score compares greater, so no leaf is found below another child, and no stale selection lies there; priors below the roots come from the row of the batch that holds the tensor of the node |
| C138 | composition of C136 (shares in `f32`), the error of a power under a relative error of its base, shares of perturbed weights, and C107 (the draw in `f64`), compared with the exact probabilities of C98 |
| C139 | couplings of random computations (`Coupling`), built step by step over the games of an iteration: the step of the game in question on the same numbers, the steps of the others skipped; C112's copies as the relation |
| C140 | the half-turns of a game with their movers (`Halves`), turns as runs of the same mover; the distance to the end is counted in quarters of the board (`quarters`); two written games attain the bounds |
| C141 | the histories of self-play games (`Log`) and of match games (`Linked`) are sequences of half-turns as in C140; the labels are those of the returned fragments |
| C142 | the table of opening moves is written down move by move; mirrored positions are those of C25 (`mirrorBoard`) |
| C143 | the labels are stated by position and length of the game alone; winner and length come from C26-C28 |
| C144 | the batches of an epoch (`Epoch`) are full but for the last one, so their number is exact; `Steps` counts the optimizer steps |
| C145 | the fragments of a directory are those of C50, with repetitions (`stored`); the number of batches is exact |
| C146 | `filled` counts the marks in a network input by its second plane (empty cells); `labelsAt` selects the fragments of a run by it |
| C147 | structures are also read from arrays, unit variants from objects, floats in skipped fields; `Sound` is the converse of `Serde.Keeps` |

## 5. Mutation tests

`tools/mutate.py` applies an edit of a model definition in a scratch copy, rebuilds and records which theorems fail.
`seeded/LOG.jsonl` has one line per attempt.
