{
 "claims": [
  {
   "property": "C01",
   "status": "proved",
   "theorems": [
    "C01_conservation",
    "C01_new",
    "C01_isValid_iff"
   ],
   "note": "invariant over all histories (moves, skips, extra rolls), both profiles"
  },
  {
   "property": "C02",
   "status": "proved",
   "theorems": [
    "C02_no_panic",
    "C02_state_ok",
    "C02_profile_independent",
    "C02_unrolled"
   ],
   "note": "panics are values of the model; same result in debug and release"
  },
  {
   "property": "C03",
   "status": "proved",
   "theorems": [
    "C03_apply_move",
    "C03_skip_turn",
    "C03_flag_means_double",
    "C03_at_most_two_in_a_row"
   ],
   "note": "doubles are two half-turns in this code base"
  },
  {
   "property": "C04",
   "status": "proved",
   "theorems": [
    "C04_bar_first"
   ],
   "note": ""
  },
  {
   "property": "C05",
   "status": "proved",
   "theorems": [
    "C05_open_destination"
   ],
   "note": ""
  },
  {
   "property": "C06",
   "status": "proved",
   "theorems": [
    "C06_one_die_per_checker"
   ],
   "note": ""
  },
  {
   "property": "C07",
   "status": "proved",
   "theorems": [
    "C07_bear_off_all_home"
   ],
   "note": ""
  },
  {
   "property": "C08",
   "status": "partial",
   "theorems": [
    "C08_refuted",
    "C08_in_play",
    "C08_rearmost_partial"
   ],
   "note": "false in general: opposing checkers in the home board cancel in the signed sum; proved when there are none"
  },
  {
   "property": "C09",
   "status": "proved",
   "theorems": [
    "C09_two_checker_plays",
    "C09_first_moves"
   ],
   "note": ""
  },
  {
   "property": "C10",
   "status": "proved",
   "theorems": [
    "C10_dedup",
    "C10_distinct_boards"
   ],
   "note": ""
  },
  {
   "property": "C11",
   "status": "proved",
   "theorems": [
    "C11_maximal"
   ],
   "note": ""
  },
  {
   "property": "C12",
   "status": "partial",
   "theorems": [
    "C12_refuted",
    "C12_in_play",
    "C12_both_dice_partial"
   ],
   "note": "false: one-die moves are offered beside two-dice plays"
  },
  {
   "property": "C13",
   "status": "partial",
   "theorems": [
    "C13_refuted",
    "C13_in_play",
    "C13_empty_iff_stuck_partial"
   ],
   "note": "empty list implies stuck always; converse only without opposing checkers in the home board"
  },
  {
   "property": "C14",
   "status": "proved",
   "theorems": [
    "C14_dice_order",
    "C20_dice_order"
   ],
   "note": "all states, valid or not"
  },
  {
   "property": "C15",
   "status": "proved",
   "theorems": [
    "C15_refinement",
    "C15_returned_legal"
   ],
   "note": "the property itself is restricted to positions without opposing checkers in the mover's home board"
  },
  {
   "property": "C16",
   "status": "proved",
   "theorems": [
    "C16_effect",
    "C16_frame",
    "C16_composition",
    "C16_empty"
   ],
   "note": ""
  },
  {
   "property": "C17",
   "status": "proved",
   "theorems": [
    "C17_progress",
    "C17_returned",
    "C17_collected_monotone"
   ],
   "note": ""
  },
  {
   "property": "C18",
   "status": "proved",
   "theorems": [
    "C18_winner_iff",
    "C18_check_win",
    "C18_winner_moved_last",
    "C18_persistent"
   ],
   "note": ""
  },
  {
   "property": "C19",
   "status": "proved",
   "theorems": [
    "C19_code_range",
    "C19_empty"
   ],
   "note": ""
  },
  {
   "property": "C20",
   "status": "proved",
   "theorems": [
    "C20_round_trip",
    "C20_dice_order"
   ],
   "note": ""
  },
  {
   "property": "C21",
   "status": "proved",
   "theorems": [
    "C21_distinct_codes",
    "C21_nodup"
   ],
   "note": ""
  },
  {
   "property": "C22",
   "status": "proved",
   "theorems": [
    "C22_encode_agree",
    "C22_decode_agree"
   ],
   "note": "two separately transcribed models, equal on all inputs"
  },
  {
   "property": "C23",
   "status": "proved",
   "theorems": [
    "C23_content",
    "C23_injective"
   ],
   "note": ""
  },
  {
   "property": "C24",
   "status": "proved",
   "theorems": [
    "C24_no_deadlock"
   ],
   "note": ""
  },
  {
   "property": "C25",
   "status": "partial",
   "theorems": [
    "C25_refuted",
    "C25_in_play",
    "C25_colour_symmetry_partial",
    "C25_winner",
    "C25_steps"
   ],
   "note": "false when opposing checkers are in the home board; C25_steps states exactly which checker moves only one colour is offered"
  },
  {
   "property": "C26",
   "status": "proved",
   "theorems": [
    "C26_consistent",
    "C26_cells",
    "C26_one_winner"
   ],
   "note": ""
  },
  {
   "property": "C27",
   "status": "proved",
   "theorems": [
    "C27_winner"
   ],
   "note": ""
  },
  {
   "property": "C28",
   "status": "proved",
   "theorems": [
    "C28_moves_iff",
    "C28_no_winner_move",
    "C28_ends",
    "C28_progress"
   ],
   "note": ""
  },
  {
   "property": "C29",
   "status": "proved",
   "theorems": [
    "C29_codes"
   ],
   "note": ""
  },
  {
   "property": "C30",
   "status": "partial",
   "theorems": [
    "C30_refuted",
    "C30_board_partial",
    "C30_in_play",
    "C30_self_play"
   ],
   "note": "false: the player to move is not encoded; the board is; in games the player to move is determined by the input together with the player who started, so the input determines the positions of self-play, and in matches those with an odd number of marks"
  },
  {
   "property": "C31",
   "status": "proved",
   "theorems": [
    "C31_legal",
    "C31_empty"
   ],
   "note": "every game, arithmetic and random stream"
  },
  {
   "property": "C32",
   "status": "partial",
   "theorems": [
    "C32_tictactoe",
    "C32_backgammon_refuted",
    "C32_backgammon_partial"
   ],
   "note": "proved for TicTacToe; false for Backgammon: a position without legal moves makes expand panic, reachable after one move of each side; no other panic is possible"
  },
  {
   "property": "C33",
   "status": "partial",
   "theorems": [
    "C33_refuted",
    "C33_always_zero",
    "C33_partial"
   ],
   "note": "false: the loop tests the winner of the start position, so undecided nodes always report 0"
  },
  {
   "property": "C34",
   "status": "proved",
   "theorems": [
    "C34_visits",
    "C34_root",
    "C34_children"
   ],
   "note": ""
  },
  {
   "property": "C35",
   "status": "proved",
   "theorems": [
    "C35_backpropagate"
   ],
   "note": ""
  },
  {
   "property": "C36",
   "status": "proved",
   "theorems": [
    "C36_well_formed"
   ],
   "note": ""
  },
  {
   "property": "C37",
   "status": "proved",
   "theorems": [
    "C37_most_visited",
    "C37_win_pct"
   ],
   "note": ""
  },
  {
   "property": "C38",
   "status": "proved",
   "theorems": [
    "C38_roots"
   ],
   "note": "every game, network, order of the hash set"
  },
  {
   "property": "C39",
   "status": "proved",
   "theorems": [
    "C39_rows",
    "C39_single",
    "C39_search"
   ],
   "note": "exact arithmetic; after at least one iteration a row with a legal move is a distribution"
  },
  {
   "property": "C40",
   "status": "proved",
   "theorems": [
    "C40_legal",
    "C40_draw",
    "C40_backgammon",
    "C40_tictactoe"
   ],
   "note": "powers of visit shares are arbitrary nonnegative numbers, zero at zero, so they may underflow; the rest is exact"
  },
  {
   "property": "C41",
   "status": "partial",
   "theorems": [
    "C41_refuted",
    "C41_iteration_partial",
    "C41_atLeast_partial",
    "C41_single_partial"
   ],
   "note": "false: stale entries of selected_nodes_idxs are expanded and visited again; true for batches of one game and for iterations in which all or none of the selections end in finished positions"
  },
  {
   "property": "C42",
   "status": "proved",
   "theorems": [
    "C42_selection",
    "C42_search"
   ],
   "note": ""
  },
  {
   "property": "C43",
   "status": "partial",
   "theorems": [
    "C43_refuted",
    "C43_panics",
    "C43_partial",
    "C43_iteration_partial",
    "C43_noise_partial",
    "C43_codes_partial",
    "C43_codes_panic_partial",
    "C43_expand_partial"
   ],
   "note": "false: the search panics for every state with a legal move; true for the others; what each step does on a well-formed tree is proved separately"
  },
  {
   "property": "C44",
   "status": "proved",
   "theorems": [
    "C44_priors",
    "C44_codes",
    "C44_noise",
    "C44_children"
   ],
   "note": "exact arithmetic"
  },
  {
   "property": "C45",
   "status": "partial",
   "theorems": [
    "C45_refuted",
    "C45_partial",
    "C45_labelled",
    "C46_tictactoe"
   ],
   "note": "false for games decided in the turn played after the round limit (their fragments are also returned with label 0); every fragment of a decided game is returned with the right label; fully true for TicTacToe with a limit of at least 9"
  },
  {
   "property": "C46",
   "status": "partial",
   "theorems": [
    "C46_refuted",
    "C46_partial",
    "C46_limit",
    "C46_tictactoe"
   ],
   "note": "false for games reaching the round limit; true if all games end within it, so for TicTacToe with a limit of at least 9"
  },
  {
   "property": "C47",
   "status": "partial",
   "theorems": [
    "C47_refuted",
    "C47_labels",
    "C47_partial",
    "C47_tictactoe_panics",
    "C47_backgammon_panics"
   ],
   "note": "false: draws are labelled -1; true for decided games; moreover the real search always panics"
  },
  {
   "property": "C48",
   "status": "proved",
   "theorems": [
    "C48_batches",
    "C48_zero"
   ],
   "note": "a batch size of zero panics"
  },
  {
   "property": "C49",
   "status": "partial",
   "theorems": [
    "C49_refuted",
    "C49_single",
    "C49_empty",
    "C49_partial",
    "C49_tictactoe",
    "C49_backgammon"
   ],
   "note": "false: a single fragment cannot be loaded (squeeze removes its dimension), no fragments cannot be saved; true for two or more fragments of either game (the states lose their leading dimension of size one)"
  },
  {
   "property": "C50",
   "status": "partial",
   "theorems": [
    "C50_refuted",
    "C50_prefixes",
    "C50_multiplicity",
    "C50_complete",
    "C50_partial"
   ],
   "note": "false: each self-play directory holds all fragments so far, so those of iteration i of m are loaded m - i times; true for one self-play iteration"
  },
  {
   "property": "C51",
   "status": "partial",
   "theorems": [
    "C51_refuted",
    "C51_nothing"
   ],
   "note": "false: a selected self-play directory contains no entry with sp in its name, nothing is loaded"
  },
  {
   "property": "C52",
   "status": "proved",
   "theorems": [
    "C52_gate",
    "C52_verdict",
    "C52_create",
    "C52_tictactoe"
   ],
   "note": "for every rounding of the division that is monotone with error at most 2^-53 (f64: C100); saving the model succeeds"
  },
  {
   "property": "C53",
   "status": "proved",
   "theorems": [
    "C53_tictactoe",
    "C53_backgammon",
    "C53_winners",
    "C53_winners_same"
   ],
   "note": "the counts are exact (below 2^53)"
  },
  {
   "property": "C54",
   "status": "proved",
   "theorems": [
    "C54_tictactoe",
    "C54_backgammon",
    "C54_records_tictactoe",
    "C54_records_backgammon"
   ],
   "note": ""
  },
  {
   "property": "C55",
   "status": "proved",
   "theorems": [
    "C55_moves",
    "C55_tictactoe",
    "C55_backgammon"
   ],
   "note": "at every moment of a match, also of one that does not end"
  },
  {
   "property": "C56",
   "status": "partial",
   "theorems": [
    "C56_refuted",
    "C56_empty",
    "C56_partial"
   ],
   "note": "false: no turn is ever recorded"
  },
  {
   "property": "C57",
   "status": "partial",
   "theorems": [
    "C57_refuted",
    "C57_endless",
    "C57_partial",
    "C57_rounds",
    "C57_unstuck"
   ],
   "note": "false: passing bypasses the round limit, a Backgammon match of random players can go on forever; beyond the limit only the last step of a game can be a move; true if nobody is ever without a legal move"
  },
  {
   "property": "C58",
   "status": "proved",
   "theorems": [
    "C58_random",
    "C58_players"
   ],
   "note": "also for network and tree search players"
  },
  {
   "property": "C67",
   "status": "proved",
   "theorems": [
    "C67_backgammon",
    "C67_going",
    "C67_tictactoe"
   ],
   "note": "exact arithmetic, except that powers of visit shares below 1/N may underflow to zero"
  },
  {
   "property": "C65",
   "status": "proved",
   "theorems": [
    "C65_batch",
    "C65_train"
   ],
   "note": ""
  },
  {
   "property": "C66",
   "status": "partial",
   "theorems": [
    "C66_refuted",
    "C66_panics",
    "C66_partial"
   ],
   "note": "false: a run id containing sp makes the command panic; true otherwise"
  },
  {
   "property": "C63",
   "status": "proved",
   "theorems": [
    "C63_tictactoe",
    "C63_backgammon",
    "C63_empty"
   ],
   "note": ""
  },
  {
   "property": "C64",
   "status": "proved",
   "theorems": [
    "C64_tictactoe",
    "C64_backgammon",
    "C64_games"
   ],
   "note": "powers of visit shares are arbitrary nonnegative numbers, zero at zero, so they may underflow; the rest is exact"
  },
  {
   "property": "C59",
   "status": "proved",
   "theorems": [
    "C59_tictactoe",
    "C59_backgammon",
    "C59_single",
    "C59_search"
   ],
   "note": "batches of at least one position (nothing cannot be stacked); Backgammon with rolled dice; tch layers as described in DESIGN.md"
  },
  {
   "property": "C60",
   "status": "partial",
   "theorems": [
    "C60_refuted",
    "C60_accepted",
    "C60_accepted_training",
    "C60_partial"
   ],
   "note": "false: negative counts become numbers of at least 2^63; missing keys are rejected, non-negative counts are exact"
  },
  {
   "property": "C61",
   "status": "partial",
   "theorems": [
    "C61_refuted",
    "C61_ignored"
   ],
   "note": "false: the file is loaded into the store before the variables exist, so it is ignored"
  },
  {
   "property": "C62",
   "status": "proved",
   "theorems": [
    "C62_restored",
    "C62_results",
    "C62_missing"
   ],
   "note": ""
  },
  {
   "property": "C68",
   "status": "proved",
   "theorems": [
    "C68_rows",
    "C68_tictactoe",
    "C68_backgammon"
   ],
   "note": "every arithmetic with operations that are functions of their arguments"
  },
  {
   "property": "C69",
   "status": "proved",
   "theorems": [
    "C69_outputs",
    "C69_tictactoe",
    "C69_backgammon"
   ],
   "note": "real arithmetic"
  },
  {
   "property": "C70",
   "status": "partial",
   "theorems": [
    "C70_refuted",
    "C70_release",
    "C70_partial"
   ],
   "note": "false: the sums wrap; a release build accepts exactly the boards with 15 checkers of each side modulo 256; exact if the counts of bar and collected checkers are at most 127 (release: and nobody owns more than 270)"
  },
  {
   "property": "C71",
   "status": "proved",
   "theorems": [
    "C71_tictactoe",
    "C71_backgammon",
    "C71_injective"
   ],
   "note": "strings of Unicode scalar values, numbers in the range of their Rust types"
  },
  {
   "property": "C72",
   "status": "proved",
   "theorems": [
    "C72_any",
    "C72_tictactoe",
    "C72_backgammon",
    "C72_content",
    "C72_runs"
   ],
   "note": "the ids are pairwise different and the output directory holds no other .json entry"
  },
  {
   "property": "C73",
   "status": "partial",
   "theorems": [
    "C73_refuted",
    "C73_constant",
    "C73_only_initial",
    "C73_partial"
   ],
   "note": "false: the printed position is never advanced, and no turns are recorded; the initial position is printed"
  },
  {
   "property": "C74",
   "status": "proved",
   "theorems": [
    "C74_truncated",
    "C74_all"
   ],
   "note": ""
  },
  {
   "property": "C75",
   "status": "proved",
   "theorems": [
    "C75_agents",
    "C75_missing"
   ],
   "note": ""
  },
  {
   "property": "C76",
   "status": "partial",
   "theorems": [
    "C76_refuted",
    "C76_panics_tictactoe",
    "C76_panics_backgammon",
    "C76_partial",
    "C76_files"
   ],
   "note": "false: without a model path the match starts and panics in its first round; true for the other agents and with a path"
  },
  {
   "property": "C77",
   "status": "proved",
   "theorems": [
    "C77_plain",
    "C77_batched"
   ],
   "note": "for every monotone rounding that is exact on integers up to 2^24 (f32: C100)"
  },
  {
   "property": "C78",
   "status": "partial",
   "theorems": [
    "C78_refuted",
    "C78_values_partial"
   ],
   "note": "false: the network's value is never negated; true for finished leaves and leaves with the root player to move"
  },
  {
   "property": "C79",
   "status": "partial",
   "theorems": [
    "C79_refuted",
    "C79_plain_partial",
    "C79_batched_partial"
   ],
   "note": "false: selection maximises the searching player's value at the opponent's nodes too; right at the searching player's nodes"
  },
  {
   "property": "C80",
   "status": "partial",
   "theorems": [
    "C80_refuted",
    "C80_visits_partial",
    "C80_partial",
    "real_sober",
    "C80_example_config"
   ],
   "note": "false with as many iterations as moves (ties go to the last child) or a large exploration constant; proved for more iterations than moves if c ln(iterations) <= 11 (config-example.toml: 9.3), over exact arithmetic; in f32: C100"
  },
  {
   "property": "C81",
   "status": "partial",
   "theorems": [
    "C81_refuted",
    "C81_partial",
    "C81_backgammon_partial",
    "C81_match_partial",
    "bg_warm",
    "ttt_warm"
   ],
   "note": "false for low temperatures: all powers underflow and the row counts as that of a stuck player; true if N^(1/T) <= 2^149 for N codes (Backgammon: T >= 1/14)"
  },
  {
   "property": "C82",
   "status": "proved",
   "theorems": [
    "C82_loss",
    "C82_any",
    "C82_selfplay",
    "C82_tictactoe",
    "C82_backgammon"
   ],
   "note": "over the reals, log for f32 log; for targets that are not normalised the least loss is at the policies proportional to them"
  },
  {
   "property": "C83",
   "status": "partial",
   "theorems": [
    "C83_refuted",
    "C83_partial",
    "C83_unit_partial"
   ],
   "note": "false unless the temperature is 1: the targets are powers of visit shares that are not divided by their sum; proved: they are powers of a distribution on the legal moves, and some entry is positive"
  },
  {
   "property": "C84",
   "status": "proved",
   "theorems": [
    "C84_iterations",
    "C84_saved",
    "C84_single"
   ],
   "note": "batch size below 2^64 and fewer than 2^63 fragments; the optimizer step is an arbitrary function of the weights and the batch"
  },
  {
   "property": "C85",
   "status": "partial",
   "theorems": [
    "C85_refuted",
    "C85_lost",
    "C85_partial"
   ],
   "note": "false: nothing creates the directory and the error is only printed, so all models are lost on a fresh checkout; true if the directory exists"
  },
  {
   "property": "C86",
   "status": "partial",
   "theorems": [
    "C86_single_refuted",
    "C86_command_refuted",
    "C86_parallel_partial"
   ],
   "note": "true for learn_parallel; false for learn and the train command, which do not check"
  },
  {
   "property": "C87",
   "status": "partial",
   "theorems": [
    "C87_refuted",
    "C87_tictactoe_partial",
    "C87_backgammon_partial",
    "C87_backgammon_rich",
    "C87_backgammon_sure",
    "C87_no_games"
   ],
   "note": "false at low temperatures: all players pass, there are no fragments, and saving them panics; true if powers of shares of at least 1/N do not vanish (Backgammon: unless a match goes on forever, see C57, which has probability zero)"
  },
  {
   "property": "C88",
   "status": "proved",
   "theorems": [
    "C88_trained",
    "C88_untrained"
   ],
   "note": "batch size below 2^64 and fewer than 2^63 fragments; if a self-play directory is selected nothing is loaded (C51) and the weights are written untrained"
  },
  {
   "property": "C89",
   "status": "proved",
   "theorems": [
    "C89_shows",
    "C89_backgammon",
    "C89_injective"
   ],
   "note": "proved for boards with entries between -127 and 127"
  },
  {
   "property": "C90",
   "status": "proved",
   "theorems": [
    "C90_shows",
    "C90_injective"
   ],
   "note": "the text does not show who is to move"
  },
  {
   "property": "C91",
   "status": "partial",
   "theorems": [
    "C91_refuted",
    "C91_panics",
    "C91_stuck_partial",
    "C91_search_partial",
    "C91_learn"
   ],
   "note": "false: it panics for every state with a legal move, since the search does (C43), and so does every run of learn; true for stuck states and for any search that would return shares of legal moves"
  },
  {
   "property": "C92",
   "status": "proved",
   "theorems": [
    "C92",
    "C92_unique"
   ],
   "note": "clap's derived parser with default settings is modelled from its documentation; -- is accepted as the last word, since no command has positional arguments; non-UTF-8 arguments are not modelled"
  },
  {
   "property": "C93",
   "status": "partial",
   "theorems": [
    "C93_refuted",
    "C93_partial",
    "C93_game"
   ],
   "note": "false for all four: the options have - in their names, not _, and replay needs the game; true after these corrections"
  },
  {
   "property": "C94",
   "status": "partial",
   "theorems": [
    "C94_refuted",
    "C94_partial",
    "C94_default",
    "C94_bounds"
   ],
   "note": "false for --n-cpus 0, which takes every CPU; true for positive numbers and for the default"
  },
  {
   "property": "C95",
   "status": "proved",
   "theorems": [
    "C95",
    "C95_moves"
   ],
   "note": "the move exists for some die, not for every one: neither player may be able to move with a 6"
  },
  {
   "property": "C96",
   "status": "proved",
   "theorems": [
    "C96_rich",
    "C96",
    "C96_limit",
    "C96_fair"
   ],
   "note": "complements C57, by which single executions are endless; the random numbers have any distribution in which each residue mod 6 of the next number has conditional probability at least some \u03b5 > 0; play returns without panic"
  },
  {
   "property": "C97",
   "status": "proved",
   "theorems": [
    "C97_refinement",
    "C97_returned",
    "C97_stuck",
    "C97_difference"
   ],
   "note": "completes C08, C13 and C15 for positions with opposing checkers in the home board; player 1 has no such move if the point at the distance of the die qualifies too"
  },
  {
   "property": "C98",
   "status": "proved",
   "theorems": [
    "C98_agree",
    "C98_weights",
    "C98_search",
    "C98_order",
    "C98_cold",
    "C98_hot"
   ],
   "note": "WeightedIndex::new, sample and the binary search of rand 0.8 are modelled from their source; exact reals instead of f32 and f64; the number drawn is uniform on [0, total); C98_agree shows that the draw used in all other theorems has exactly the possible outcomes of this one"
  },
  {
   "property": "C99",
   "status": "proved",
   "theorems": [
    "C99"
   ],
   "note": "over exact real numbers (f32: C100_explore); visit counts in f32 stop growing at 2^24"
  },
  {
   "property": "C100",
   "status": "proved",
   "theorems": [
    "C100_nearest",
    "C100_gate",
    "C100_gate_exact",
    "C100_count",
    "C100_values",
    "C100_win",
    "C100_explore",
    "C100_compare",
    "C100_overflow",
    "C100_add",
    "C100_mul",
    "C100_div",
    "C100_sqrt",
    "C100_win_pct"
   ],
   "note": "rounding to nearest even is proved against its definition (C100_nearest); the sign of zero is left out; accuracy of ln is a hypothesis"
  },
  {
   "property": "C101",
   "status": "partial",
   "theorems": [
    "C101_refuted",
    "C101_text",
    "C101_partial",
    "C101_backgammon_partial"
   ],
   "note": "false: 228 wins are printed as 56.99999999999999%; the counts are right and the percentage is exact but for 35 of the 401 numbers of wins, where it is off by at most 1e-13"
  },
  {
   "property": "C102",
   "status": "proved",
   "theorems": [
    "C102_tictactoe",
    "C102_backgammon",
    "C102_returns",
    "C102_sure",
    "C102_runs",
    "C102_forged"
   ],
   "note": "the paths of models are on one line (C102_forged), ids are different words of the nanoid alphabet and the configuration file is not one of the game files; returning on Backgammon for random and network players"
  },
  {
   "property": "C103",
   "status": "proved",
   "theorems": [
    "C103",
    "C103_unbounded",
    "C103_single"
   ],
   "note": "over the real numbers, and in f32 for exploration constants up to 4"
  },
  {
   "property": "C104",
   "status": "partial",
   "theorems": [
    "C104_blunder",
    "C104_blunder_single",
    "C104_refuted"
   ],
   "note": "the full statement is refuted for exploration constant 2: values are not negated for the opponent; the blunder is shown for every number of iterations from 25 to 2^24, and to 65536 in f32"
  },
  {
   "property": "C105",
   "status": "proved",
   "theorems": [
    "C105_display",
    "C105_unique",
    "C105_injective",
    "C105_percentage"
   ],
   "note": "the algorithm of the standard library is modelled by a search over the number of digits; that 17 digits are enough is proved; the sign of zero is left out"
  },
  {
   "property": "C106",
   "status": "partial",
   "theorems": [
    "C106_one_roll",
    "C106_one_roll_batched",
    "C106_frozen",
    "C106_frozen_single",
    "C106_refuted"
   ],
   "note": "proved: in every tree of both searches a sequence of moves leads to one position with one roll; the full statement is refuted for exploration constant 2 by a bear-off position, for every number of iterations from 16 on; a game leads to the position"
  },
  {
   "property": "C107",
   "status": "proved",
   "theorems": [
    "C107_new",
    "C107_positive",
    "C107_total",
    "C107_model",
    "C107_share",
    "C107_row",
    "C107_drawn",
    "C107_refuted"
   ],
   "note": "WeightedIndex and UniformFloat of rand 0.8 in f64; the generator is assumed to return each 64-bit number equally often; the row is any row of f32 numbers, powers of libtorch are not modelled"
  },
  {
   "property": "C108",
   "status": "proved",
   "theorems": [
    "C108_moments",
    "C108_step",
    "C108_bound",
    "C108_first",
    "C108_sharp",
    "C108_limit",
    "C108_second",
    "C108_drift"
   ],
   "note": "over exact real numbers; gradients are arbitrary; Adam of libtorch as documented"
  },
  {
   "property": "C109",
   "status": "partial",
   "theorems": [
    "C109_refuted",
    "C109_first_partial",
    "C109_uniform",
    "C109_follow",
    "C109_partial",
    "C109_large",
    "C109_eventually"
   ],
   "note": "false for weights below about half of the learning rate (config-example.toml: 0.0004); the criterion for the first step is exact; for all steps it is true for weights of at least 73.1 learning rates, and every weight ends up below this; between these bounds only the first step is decided"
  },
  {
   "property": "C110",
   "status": "proved",
   "theorems": [
    "C110_forward",
    "C110_step",
    "C110_sound",
    "C110_iterations",
    "C110_tictactoe",
    "C110_backgammon",
    "C110_tenth",
    "C110_statistics"
   ],
   "note": "over exact real numbers; gradients are arbitrary; NaN in weights (an assertion of the code) does not arise with real numbers; temperature not too low as in C87"
  },
  {
   "property": "C111",
   "status": "proved",
   "theorems": [
    "C111_same",
    "C111_rows",
    "C111_selfplay",
    "C111_tictactoe",
    "C111_opening"
   ],
   "note": "Backgammon: dice are rolled during expansion, so trees differ; the shared row of noise is the same there"
  },
  {
   "property": "C112",
   "status": "partial",
   "theorems": [
    "C112_refuted",
    "C112_alone_partial",
    "C112_shares_partial",
    "C112_dice_partial",
    "C112_dice_shares_partial",
    "C112_backgammon_partial"
   ],
   "note": "missing: iterations in which only some of the games select a finished position, where it is false (C112_refuted)"
  },
  {
   "property": "C113",
   "status": "partial",
   "theorems": [
    "C113_refuted",
    "C113_share",
    "C113_prior",
    "C113_search_partial",
    "C113_prior_single",
    "C113_single_partial",
    "C113_average",
    "C113_bounds",
    "C113_backgammon"
   ],
   "note": "the claim itself is false; proved is the exact weight instead.  in f32 the weight is the same up to an explicit rounding error (C113_single_partial).  missing: alpha_mcts for one game always panics (C43)"
  },
  {
   "property": "C114",
   "status": "proved",
   "theorems": [
    "C114_network",
    "C114_tictactoe",
    "C114_backgammon",
    "C114_skip"
   ],
   "note": "exact arithmetic; the spec (Net/Textbook.lean) uses functions of integer coordinates and finite sums and does not mention the model"
  },
  {
   "property": "C115",
   "status": "partial",
   "theorems": [
    "C115_refuted",
    "C115_trees",
    "C115_backgammon",
    "C115_tictactoe"
   ],
   "note": "the claim itself is false; proved is that rollouts have no influence at all, as equality of distributions under the product measure on random streams"
  },
  {
   "property": "C116",
   "status": "partial",
   "theorems": [
    "C116_partial",
    "C116_refuted",
    "C116_even",
    "C116_ttt"
   ],
   "note": "false for batches of more than one game (C116_refuted: TicTacToe, two games, nine iterations); proved for single games with the factor of the priors, and for all batches as a lower bound on the visits of the winning move"
  },
  {
   "property": "C117",
   "status": "proved",
   "theorems": [
    "C117_tree",
    "C117_search",
    "C117_batch",
    "C117_store",
    "C117_actions",
    "C117_actions_injective"
   ],
   "note": "the decimal formats of f32 and the Debug form of an action are parameters without line breaks and tabs; for the moves of both games this is proved"
  },
  {
   "property": "C118",
   "status": "partial",
   "theorems": [
    "C118_gradient",
    "C118_optimizer",
    "C118_first",
    "C118_partial",
    "C118_refuted_decay",
    "C118_refuted"
   ],
   "note": "proved for the first step of an optimizer, for the loss plus wd/2 times the squares of the trained variables (the loss itself without weight decay), over the real numbers; for the loss alone with weight decay and for every later step of the optimizer it is refuted (for losses linear in one variable)"
  },
  {
   "property": "C119",
   "status": "proved",
   "theorems": [
    "C119_doubles",
    "C119_home_needed"
   ],
   "note": "the property is restricted to positions without opposing checkers in the home board of the mover, as C15; C119_home_needed shows that the restriction is needed"
  },
  {
   "property": "C120",
   "status": "proved",
   "theorems": [
    "C120_rounds",
    "C120_tail",
    "C120_expected",
    "C120_fair",
    "C120_unbounded"
   ],
   "note": "the numbers taken from the tape per round are bounded from above by the worst case, so the bounds are explicit but very large"
  },
  {
   "property": "C121",
   "status": "proved",
   "theorems": [
    "C121_law",
    "C121_possible",
    "C121_panics",
    "C121_safe"
   ],
   "note": "the generators of the threads are independent and produce identically distributed numbers; a schedule does not look ahead"
  },
  {
   "property": "C122",
   "status": "partial",
   "theorems": [
    "C122_refuted",
    "C122_silent",
    "C122_untrained",
    "C122_odd",
    "C122_files",
    "C122_partial"
   ],
   "note": "false: the io::Result of get_all_paths_rec is dropped, so the command trains on the directories found before the first failure, or saves untrained weights; names that are not Unicode and unreadable data files panic; without failures the data is that of the model used in C50, C51, C66 and C88; failures of is_dir and exists are not modelled"
  },
  {
   "property": "C123",
   "status": "proved",
   "theorems": [
    "C123_independent",
    "C123_single",
    "C123_wins",
    "C123_tictactoe"
   ],
   "note": "for random players and players with the plain search; the random numbers are independent and equally distributed; C123_single needs matches that do not panic, which C58 gives for TicTacToe"
  },
  {
   "property": "C124",
   "status": "proved",
   "theorems": [
    "C124_game",
    "C124_wins",
    "C124_average"
   ],
   "note": "the counts are evaluated in the kernel with tables whose correctness is proved; the numbers are uniform modulo 1 to 9, as those below 2520"
  },
  {
   "property": "C125",
   "status": "proved",
   "theorems": [
    "C125_plain",
    "C125_batched",
    "C125_tictactoe_plain",
    "C125_tictactoe",
    "C125_backgammon"
   ],
   "note": "counts nodes and their entries, not bytes; the depth of a recursion is the bound with which the model of the function gives its unbounded result"
  },
  {
   "property": "C126",
   "status": "proved",
   "theorems": [
    "C126_dice",
    "C126_choose",
    "C126_shuffle",
    "C126_positions",
    "C126_ends",
    "C126_roll",
    "C126_pick",
    "C126_model",
    "C126_game"
   ],
   "note": "rand 0.8 is not part of the repository: widening multiplication with rejection and the shuffle are written down from the algorithm of that version; thread_rng is idealised as independent uniform 32-bit words"
  },
  {
   "property": "C127",
   "status": "proved",
   "theorems": [
    "C127_exchange",
    "C127_law",
    "C127_tictactoe",
    "C127_equal"
   ],
   "note": "C127_exchange and C127_law are for any game with a relation that exchanges the players; Backgammon has none, the code treats its colours differently (C25)"
  },
  {
   "property": "C128",
   "status": "proved",
   "theorems": [
    "C128_tictactoe"
   ],
   "note": "follows from C115 (the rollouts of the search report nothing), C123 (the games are independent) and C127 (exchanged marks); the move orders of the examples are for the exact arithmetic demoFloats"
  },
  {
   "property": "C129",
   "status": "proved",
   "theorems": [
    "C129",
    "C129_far",
    "C129_quiet",
    "C129_tictactoe",
    "C129_opening",
    "C129_single",
    "C129_backgammon",
    "C129_backgammon_opening"
   ],
   "note": "the scores enter by three comparisons (structure Explores), proved for the exact formula and for single precision with a logarithm of relative error 2^-22"
  },
  {
   "property": "C130",
   "status": "proved",
   "theorems": [
    "C130",
    "C130_lost",
    "learn_of",
    "learn_has"
   ],
   "note": "the text is read by a reader that does not use the printer; the progress bars are left out; the win rate is computed in f64"
  },
  {
   "property": "C131",
   "status": "partial",
   "theorems": [
    "C131_tictactoe",
    "C131_backgammon",
    "C131_partial",
    "C131_attached",
    "C131_rejected",
    "C131_refuted",
    "play_many"
   ],
   "note": "false for ids that begin with a hyphen: the parser refuses every command line with such a word after --run-id or -r; true for the other ids, and for all of them if written --run-id=ID or -rID"
  },
  {
   "property": "C132",
   "status": "proved",
   "theorems": [
    "C132_more",
    "C132_less",
    "C132_game",
    "C132_backgammon",
    "C132_equal",
    "C132_random"
   ],
   "note": "from C123 (independence), C96 (matches end), C124 and C127; network players are not covered, their games are coupled by the batches (C112)"
  },
  {
   "property": "C133",
   "status": "proved",
   "theorems": [
    "C133_tictactoe",
    "C133_backgammon",
    "C133_reports",
    "C133_determines",
    "C133_tictactoe_words",
    "C133_backgammon_words"
   ],
   "note": "the output is read by an independent reader (lines by their labels, words between marks); the positions after the turns are not covered, they are wrong (C73)"
  },
  {
   "property": "C134",
   "status": "proved",
   "theorems": [
    "C134",
    "C134_learn",
    "C134_lost",
    "C134_play",
    "C134_train",
    "C134_files",
    "C134_data",
    "C134_main",
    "learn_returns",
    "C134_runs"
   ],
   "note": "files are texts at paths, the training data is a tree for each game; the format of network files is a parameter of which reading back is assumed (C62); links and failing disks are left out"
  },
  {
   "property": "C135",
   "status": "proved",
   "theorems": [
    "C135_bounded",
    "C135_rest",
    "C135_undecayed",
    "C135_network"
   ],
   "note": "over the real numbers; the gradient is an arbitrary function; C135_network is for the entries of the trained variables of the network"
  },
  {
   "property": "C136",
   "status": "proved",
   "theorems": [
    "C136_visits",
    "C136_batch",
    "C136_tensor",
    "C136_vec",
    "C136_pos",
    "C136_total",
    "C136_nan",
    "C136_mix",
    "C136_priors",
    "C136_search",
    "C136_finished"
   ],
   "note": "in f32, rounded to nearest even; the order of adding up is a parameter"
  },
  {
   "property": "C137",
   "status": "proved",
   "theorems": [
    "C137_softmax",
    "C137_last",
    "C137_finite",
    "C137_centre"
   ],
   "note": "in f32, rounded to nearest even; the exponential function of the library is a parameter with the stated accuracy"
  },
  {
   "property": "C138",
   "status": "proved",
   "theorems": [
    "C138_played",
    "C138_backgammon"
   ],
   "note": "the power function of the library is a parameter with the stated accuracy; for the single search see C98 (it always panics, C43)"
  },
  {
   "property": "C139",
   "status": "proved",
   "theorems": [
    "C139_coupling",
    "C139_shares",
    "C139_backgammon"
   ],
   "note": "for batches in which some games select finished positions while others do not the claim fails already without chance: C112_refuted"
  },
  {
   "property": "C140",
   "status": "proved",
   "theorems": [
    "C140_length",
    "C140_attained"
   ],
   "note": "also used for how long games are far from their end in C112, C129 and C139"
  },
  {
   "property": "C141",
   "status": "proved",
   "theorems": [
    "C141_game",
    "C141_run",
    "C141_limit",
    "C141_attained",
    "C141_match"
   ],
   "note": "from C140 and the histories of C64 and C55; C141_attained shows a history that meets the description of C64, not a run that produces it"
  },
  {
   "property": "C142",
   "status": "proved",
   "theorems": [
    "C142_openings",
    "C142_single",
    "openings_unique",
    "C142_sides",
    "C142_match",
    "C142_games",
    "C142_unlike"
   ],
   "note": "the move of C129, with the list of legal moves computed for each roll; runs in which the search panics at a position without legal moves (C32) return no move"
  },
  {
   "property": "C143",
   "status": "proved",
   "theorems": [
    "C143_game",
    "C143_run"
   ],
   "note": "hypotheses of C46 for TicTacToe: PwWarm 9, limit >= 9, iterations != 0"
  },
  {
   "property": "C144",
   "status": "proved",
   "theorems": [
    "C144_fragments",
    "C144_steps",
    "C144_example",
    "C144_run",
    "C144_drift"
   ],
   "note": "PwWarm 9 as in C46; the bound on the weights is over the real numbers (C108)"
  },
  {
   "property": "C145",
   "status": "proved",
   "theorems": [
    "C145_stored",
    "C145_example"
   ],
   "note": "hypotheses as in C144; the directory of the run is as learn_parallel leaves it (C84_saved)"
  },
  {
   "property": "C146",
   "status": "proved",
   "theorems": [
    "C146_stages"
   ],
   "note": "hypotheses as in C143; the marks are counted in the recorded tensors"
  },
  {
   "property": "C147",
   "status": "proved",
   "theorems": [
    "C147_tictactoe",
    "C147_backgammon",
    "C147_normal"
   ],
   "note": "texts are accepted as in the model of serde_json (Text/Json, Versus/Saved)"
  }
 ]
}