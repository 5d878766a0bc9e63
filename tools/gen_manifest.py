#!/usr/bin/env python3
"""Writes MANIFEST.json from the table below and checks that the theorem names occur in the sources."""
import json, os, re, sys
ROOT = os.path.dirname(os.path.dirname(os.path.abspath(__file__)))
P, Q = "proved", "partial"
T = [
 ("C01", P, ["C01_conservation", "C01_new", "C01_isValid_iff"], "invariant over all histories (moves, skips, extra rolls), both profiles"),
 ("C02", P, ["C02_no_panic", "C02_state_ok", "C02_profile_independent", "C02_unrolled"], "panics are values of the model; same result in debug and release"),
 ("C03", P, ["C03_apply_move", "C03_skip_turn", "C03_flag_means_double", "C03_at_most_two_in_a_row"], "doubles are two half-turns in this code base"),
 ("C04", P, ["C04_bar_first"], ""),
 ("C05", P, ["C05_open_destination"], ""),
 ("C06", P, ["C06_one_die_per_checker"], ""),
 ("C07", P, ["C07_bear_off_all_home"], ""),
 ("C08", Q, ["C08_refuted", "C08_in_play", "C08_rearmost_partial"], "false in general: opposing checkers in the home board cancel in the signed sum; proved when there are none"),
 ("C09", P, ["C09_two_checker_plays", "C09_first_moves"], ""),
 ("C10", P, ["C10_dedup", "C10_distinct_boards"], ""),
 ("C11", P, ["C11_maximal"], ""),
 ("C12", Q, ["C12_refuted", "C12_in_play", "C12_both_dice_partial"], "false: one-die moves are offered beside two-dice plays"),
 ("C13", Q, ["C13_refuted", "C13_in_play", "C13_empty_iff_stuck_partial"], "empty list implies stuck always; converse only without opposing checkers in the home board"),
 ("C14", P, ["C14_dice_order", "C20_dice_order"], "all states, valid or not"),
 ("C15", P, ["C15_refinement", "C15_returned_legal"], "the property itself is restricted to positions without opposing checkers in the mover's home board"),
 ("C16", P, ["C16_effect", "C16_frame", "C16_composition", "C16_empty"], ""),
 ("C17", P, ["C17_progress", "C17_returned", "C17_collected_monotone"], ""),
 ("C18", P, ["C18_winner_iff", "C18_check_win", "C18_winner_moved_last", "C18_persistent"], ""),
 ("C19", P, ["C19_code_range", "C19_empty"], ""),
 ("C20", P, ["C20_round_trip", "C20_dice_order"], ""),
 ("C21", P, ["C21_distinct_codes", "C21_nodup"], ""),
 ("C22", P, ["C22_encode_agree", "C22_decode_agree"], "two separately transcribed models, equal on all inputs"),
 ("C23", P, ["C23_content", "C23_injective"], ""),
 ("C24", P, ["C24_no_deadlock"], ""),
 ("C25", Q, ["C25_refuted", "C25_in_play", "C25_colour_symmetry_partial", "C25_winner", "C25_steps"], "false when opposing checkers are in the home board; C25_steps states exactly which checker moves only one colour is offered"),
 ("C26", P, ["C26_consistent", "C26_cells", "C26_one_winner"], ""),
 ("C27", P, ["C27_winner"], ""),
 ("C28", P, ["C28_moves_iff", "C28_no_winner_move", "C28_ends", "C28_progress"], ""),
 ("C29", P, ["C29_codes"], ""),
 ("C30", Q, ["C30_refuted", "C30_board_partial", "C30_in_play", "C30_self_play"], "false: the player to move is not encoded; the board is; in games the player to move is determined by the input together with the player who started, so the input determines the positions of self-play, and in matches those with an odd number of marks"),
 ("C31", P, ["C31_legal", "C31_empty"], "every game, arithmetic and random stream"),
 ("C32", Q, ["C32_tictactoe", "C32_backgammon_refuted", "C32_backgammon_partial"], "proved for TicTacToe; false for Backgammon: a position without legal moves makes expand panic, reachable after one move of each side; no other panic is possible"),
 ("C33", Q, ["C33_refuted", "C33_always_zero", "C33_partial"], "false: the loop tests the winner of the start position, so undecided nodes always report 0"),
 ("C34", P, ["C34_visits", "C34_root", "C34_children"], ""),
 ("C35", P, ["C35_backpropagate"], ""),
 ("C36", P, ["C36_well_formed"], ""),
 ("C37", P, ["C37_most_visited", "C37_win_pct"], ""),
 ("C38", P, ["C38_roots"], "every game, network, order of the hash set"),
 ("C39", P, ["C39_rows", "C39_single", "C39_search"], "exact arithmetic; after at least one iteration a row with a legal move is a distribution"),
 ("C40", P, ["C40_legal", "C40_draw", "C40_backgammon", "C40_tictactoe"], "powers of visit shares are arbitrary nonnegative numbers, zero at zero, so they may underflow; the rest is exact"),
 ("C41", Q, ["C41_refuted", "C41_iteration_partial", "C41_atLeast_partial", "C41_single_partial"], "false: stale entries of selected_nodes_idxs are expanded and visited again; true for batches of one game and for iterations in which all or none of the selections end in finished positions"),
 ("C42", P, ["C42_selection", "C42_search"], ""),
 ("C43", Q, ["C43_refuted", "C43_panics", "C43_partial", "C43_iteration_partial", "C43_noise_partial", "C43_codes_partial", "C43_codes_panic_partial", "C43_expand_partial"], "false: the search panics for every state with a legal move; true for the others; what each step does on a well-formed tree is proved separately"),
 ("C44", P, ["C44_priors", "C44_codes", "C44_noise", "C44_children"], "exact arithmetic"),
 ("C45", Q, ["C45_refuted", "C45_partial", "C45_labelled", "C46_tictactoe"], "false for games decided in the turn played after the round limit (their fragments are also returned with label 0); every fragment of a decided game is returned with the right label; fully true for TicTacToe with a limit of at least 9"),
 ("C46", Q, ["C46_refuted", "C46_partial", "C46_limit", "C46_tictactoe"], "false for games reaching the round limit; true if all games end within it, so for TicTacToe with a limit of at least 9"),
 ("C47", Q, ["C47_refuted", "C47_labels", "C47_partial", "C47_tictactoe_panics", "C47_backgammon_panics"], "false: draws are labelled -1; true for decided games; moreover the real search always panics"),
 ("C48", P, ["C48_batches", "C48_zero"], "a batch size of zero panics"),
 ("C49", Q, ["C49_refuted", "C49_single", "C49_empty", "C49_partial", "C49_tictactoe", "C49_backgammon"], "false: a single fragment cannot be loaded (squeeze removes its dimension), no fragments cannot be saved; true for two or more fragments of either game (the states lose their leading dimension of size one)"),
 ("C50", Q, ["C50_refuted", "C50_prefixes", "C50_multiplicity", "C50_complete", "C50_partial"], "false: each self-play directory holds all fragments so far, so those of iteration i of m are loaded m - i times; true for one self-play iteration"),
 ("C51", Q, ["C51_refuted", "C51_nothing"], "false: a selected self-play directory contains no entry with sp in its name, nothing is loaded"),
 ("C52", P, ["C52_gate", "C52_verdict", "C52_create", "C52_tictactoe"], "for every rounding of the division that is monotone with error at most 2^-53 (f64: C100); saving the model succeeds"),
 ("C53", P, ["C53_tictactoe", "C53_backgammon", "C53_winners", "C53_winners_same"], "the counts are exact (below 2^53)"),
 ("C54", P, ["C54_tictactoe", "C54_backgammon", "C54_records_tictactoe", "C54_records_backgammon"], ""),
 ("C55", P, ["C55_moves", "C55_tictactoe", "C55_backgammon"], "at every moment of a match, also of one that does not end"),
 ("C56", Q, ["C56_refuted", "C56_empty", "C56_partial"], "false: no turn is ever recorded"),
 ("C57", Q, ["C57_refuted", "C57_endless", "C57_partial", "C57_rounds", "C57_unstuck"], "false: passing bypasses the round limit, a Backgammon match of random players can go on forever; beyond the limit only the last step of a game can be a move; true if nobody is ever without a legal move"),
 ("C58", P, ["C58_random", "C58_players"], "also for network and tree search players"),
 ("C67", P, ["C67_backgammon", "C67_going", "C67_tictactoe"], "exact arithmetic, except that powers of visit shares below 1/N may underflow to zero"),
 ("C65", P, ["C65_batch", "C65_train"], ""),
 ("C66", Q, ["C66_refuted", "C66_panics", "C66_partial"], "false: a run id containing sp makes the command panic; true otherwise"),
 ("C63", P, ["C63_tictactoe", "C63_backgammon", "C63_empty"], ""),
 ("C64", P, ["C64_tictactoe", "C64_backgammon", "C64_games"], "powers of visit shares are arbitrary nonnegative numbers, zero at zero, so they may underflow; the rest is exact"),
 ("C59", P, ["C59_tictactoe", "C59_backgammon", "C59_single", "C59_search"], "batches of at least one position (nothing cannot be stacked); Backgammon with rolled dice; tch layers as described in DESIGN.md"),
 ("C60", Q, ["C60_refuted", "C60_accepted", "C60_accepted_training", "C60_partial"], "false: negative counts become numbers of at least 2^63; missing keys are rejected, non-negative counts are exact"),
 ("C61", Q, ["C61_refuted", "C61_ignored"], "false: the file is loaded into the store before the variables exist, so it is ignored"),
 ("C62", P, ["C62_restored", "C62_results", "C62_missing"], ""),
 ("C68", P, ["C68_rows", "C68_tictactoe", "C68_backgammon"], "every arithmetic with operations that are functions of their arguments"),
 ("C69", P, ["C69_outputs", "C69_tictactoe", "C69_backgammon"], "real arithmetic"),
 ("C70", Q, ["C70_refuted", "C70_release", "C70_partial"], "false: the sums wrap; a release build accepts exactly the boards with 15 checkers of each side modulo 256; exact if the counts of bar and collected checkers are at most 127 (release: and nobody owns more than 270)"),
 ("C71", P, ["C71_tictactoe", "C71_backgammon", "C71_injective"], "strings of Unicode scalar values, numbers in the range of their Rust types"),
 ("C72", P, ["C72_any", "C72_tictactoe", "C72_backgammon", "C72_content", "C72_runs"], "the ids are pairwise different and the output directory holds no other .json entry"),
 ("C73", Q, ["C73_refuted", "C73_constant", "C73_only_initial", "C73_partial"], "false: the printed position is never advanced, and no turns are recorded; the initial position is printed"),
 ("C74", P, ["C74_truncated", "C74_all"], ""),
 ("C75", P, ["C75_agents", "C75_missing"], ""),
 ("C76", Q, ["C76_refuted", "C76_panics_tictactoe", "C76_panics_backgammon", "C76_partial", "C76_files"], "false: without a model path the match starts and panics in its first round; true for the other agents and with a path"),
 ("C77", P, ["C77_plain", "C77_batched"], "for every monotone rounding that is exact on integers up to 2^24 (f32: C100)"),
 ("C78", Q, ["C78_refuted", "C78_values_partial"], "false: the network's value is never negated; true for finished leaves and leaves with the root player to move"),
 ("C79", Q, ["C79_refuted", "C79_plain_partial", "C79_batched_partial"], "false: selection maximises the searching player's value at the opponent's nodes too; right at the searching player's nodes"),
 ("C80", Q, ["C80_refuted", "C80_visits_partial", "C80_partial", "real_sober", "C80_example_config"], "false with as many iterations as moves (ties go to the last child) or a large exploration constant; proved for more iterations than moves if c ln(iterations) <= 11 (config-example.toml: 9.3), over exact arithmetic; in f32: C100"),
 ("C81", Q, ["C81_refuted", "C81_partial", "C81_backgammon_partial", "C81_match_partial", "bg_warm", "ttt_warm"], "false for low temperatures: all powers underflow and the row counts as that of a stuck player; true if N^(1/T) <= 2^149 for N codes (Backgammon: T >= 1/14)"),
 ("C82", P, ["C82_loss", "C82_any", "C82_selfplay", "C82_tictactoe", "C82_backgammon"], "over the reals, log for f32 log; for targets that are not normalised the least loss is at the policies proportional to them"),
 ("C83", Q, ["C83_refuted", "C83_partial", "C83_unit_partial"], "false unless the temperature is 1: the targets are powers of visit shares that are not divided by their sum; proved: they are powers of a distribution on the legal moves, and some entry is positive"),
 ("C84", P, ["C84_iterations", "C84_saved", "C84_single"], "batch size below 2^64 and fewer than 2^63 fragments; the optimizer step is an arbitrary function of the weights and the batch"),
 ("C85", Q, ["C85_refuted", "C85_lost", "C85_partial"], "false: nothing creates the directory and the error is only printed, so all models are lost on a fresh checkout; true if the directory exists"),
 ("C86", Q, ["C86_single_refuted", "C86_command_refuted", "C86_parallel_partial"], "true for learn_parallel; false for learn and the train command, which do not check"),
 ("C87", Q, ["C87_refuted", "C87_tictactoe_partial", "C87_backgammon_partial", "C87_backgammon_rich", "C87_backgammon_sure", "C87_no_games"], "false at low temperatures: all players pass, there are no fragments, and saving them panics; true if powers of shares of at least 1/N do not vanish (Backgammon: unless a match goes on forever, see C57, which has probability zero)"),
 ("C88", P, ["C88_trained", "C88_untrained"], "batch size below 2^64 and fewer than 2^63 fragments; if a self-play directory is selected nothing is loaded (C51) and the weights are written untrained"),
 ("C89", P, ["C89_shows", "C89_backgammon", "C89_injective"], "proved for boards with entries between -127 and 127"),
 ("C90", P, ["C90_shows", "C90_injective"], "the text does not show who is to move"),
 ("C91", Q, ["C91_refuted", "C91_panics", "C91_stuck_partial", "C91_search_partial", "C91_learn"], "false: it panics for every state with a legal move, since the search does (C43), and so does every run of learn; true for stuck states and for any search that would return shares of legal moves"),
 ("C92", P, ["C92", "C92_unique"], "clap's derived parser with default settings is modelled from its documentation; -- is accepted as the last word, since no command has positional arguments; non-UTF-8 arguments are not modelled"),
 ("C93", Q, ["C93_refuted", "C93_partial", "C93_game"], "false for all four: the options have - in their names, not _, and replay needs the game; true after these corrections"),
 ("C94", Q, ["C94_refuted", "C94_partial", "C94_default", "C94_bounds"], "false for --n-cpus 0, which takes every CPU; true for positive numbers and for the default"),
 ("C95", P, ["C95", "C95_moves"], "the move exists for some die, not for every one: neither player may be able to move with a 6"),
 ("C96", P, ["C96_rich", "C96", "C96_limit", "C96_fair"], "complements C57, by which single executions are endless; the random numbers have any distribution in which each residue mod 6 of the next number has conditional probability at least some ε > 0; play returns without panic"),
 ("C97", P, ["C97_refinement", "C97_returned", "C97_stuck", "C97_difference"], "completes C08, C13 and C15 for positions with opposing checkers in the home board; player 1 has no such move if the point at the distance of the die qualifies too"),
 ("C98", P, ["C98_agree", "C98_weights", "C98_search", "C98_order", "C98_cold", "C98_hot"], "WeightedIndex::new, sample and the binary search of rand 0.8 are modelled from their source; exact reals instead of f32 and f64; the number drawn is uniform on [0, total); C98_agree shows that the draw used in all other theorems has exactly the possible outcomes of this one"),
 ("C99", P, ["C99"], "over exact real numbers (f32: C100_explore); visit counts in f32 stop growing at 2^24"),
 ("C100", P, ["C100_nearest", "C100_gate", "C100_gate_exact", "C100_count", "C100_values", "C100_win", "C100_explore", "C100_compare", "C100_overflow", "C100_add", "C100_mul", "C100_div", "C100_sqrt", "C100_win_pct"], "rounding to nearest even is proved against its definition (C100_nearest); the sign of zero is left out; accuracy of ln is a hypothesis"),
 ("C101", Q, ["C101_refuted", "C101_text", "C101_partial", "C101_backgammon_partial"], "false: 228 wins are printed as 56.99999999999999%; the counts are right and the percentage is exact but for 35 of the 401 numbers of wins, where it is off by at most 1e-13"),
 ("C102", P, ["C102_tictactoe", "C102_backgammon", "C102_returns", "C102_sure", "C102_runs", "C102_forged"], "the paths of models are on one line (C102_forged), ids are different words of the nanoid alphabet and the configuration file is not one of the game files; returning on Backgammon for random and network players"),
 ("C103", P, ["C103", "C103_unbounded", "C103_single"], "over the real numbers, and in f32 for exploration constants up to 4"),
 ("C104", Q, ["C104_blunder", "C104_blunder_single", "C104_refuted"], "the full statement is refuted for exploration constant 2: values are not negated for the opponent; the blunder is shown for every number of iterations from 25 to 2^24, and to 65536 in f32"),
 ("C105", P, ["C105_display", "C105_unique", "C105_injective", "C105_percentage"], "the algorithm of the standard library is modelled by a search over the number of digits; that 17 digits are enough is proved; the sign of zero is left out"),
 ("C106", Q, ["C106_one_roll", "C106_one_roll_batched", "C106_frozen", "C106_frozen_single", "C106_refuted"], "proved: in every tree of both searches a sequence of moves leads to one position with one roll; the full statement is refuted for exploration constant 2 by a bear-off position, for every number of iterations from 16 on; a game leads to the position"),
 ("C107", P, ["C107_new", "C107_positive", "C107_total", "C107_model", "C107_share", "C107_row", "C107_drawn", "C107_refuted"], "WeightedIndex and UniformFloat of rand 0.8 in f64; the generator is assumed to return each 64-bit number equally often; the row is any row of f32 numbers, powers of libtorch are not modelled"),
 ("C108", P, ["C108_moments", "C108_step", "C108_bound", "C108_first", "C108_sharp", "C108_limit", "C108_second", "C108_drift"], "over exact real numbers; gradients are arbitrary; Adam of libtorch as documented"),
 ("C109", Q, ["C109_refuted", "C109_first_partial", "C109_uniform", "C109_follow", "C109_partial", "C109_large", "C109_eventually"], "false for weights below about half of the learning rate (config-example.toml: 0.0004); the criterion for the first step is exact; for all steps it is true for weights of at least 73.1 learning rates, and every weight ends up below this; between these bounds only the first step is decided"),
 ("C110", P, ["C110_forward", "C110_step", "C110_sound", "C110_iterations", "C110_tictactoe", "C110_backgammon", "C110_tenth", "C110_statistics"], "over exact real numbers; gradients are arbitrary; NaN in weights (an assertion of the code) does not arise with real numbers; temperature not too low as in C87"),
 ("C111", P, ["C111_same", "C111_rows", "C111_selfplay", "C111_tictactoe", "C111_opening"], "Backgammon: dice are rolled during expansion, so trees differ; the shared row of noise is the same there"),
 ("C112", Q, ["C112_refuted", "C112_alone_partial", "C112_shares_partial", "C112_dice_partial", "C112_dice_shares_partial", "C112_backgammon_partial"], "missing: iterations in which only some of the games select a finished position, where it is false (C112_refuted)"),
 ("C113", Q, ["C113_refuted", "C113_share", "C113_prior", "C113_search_partial", "C113_prior_single", "C113_single_partial", "C113_average", "C113_bounds", "C113_backgammon"], "the claim itself is false; proved is the exact weight instead.  in f32 the weight is the same up to an explicit rounding error (C113_single_partial).  missing: alpha_mcts for one game always panics (C43)"),
 ("C114", P, ["C114_network", "C114_tictactoe", "C114_backgammon", "C114_skip"], "exact arithmetic; the spec (Net/Textbook.lean) uses functions of integer coordinates and finite sums and does not mention the model"),
 ("C115", Q, ["C115_refuted", "C115_trees", "C115_backgammon", "C115_tictactoe"], "the claim itself is false; proved is that rollouts have no influence at all, as equality of distributions under the product measure on random streams"),
 ("C116", Q, ["C116_partial", "C116_refuted", "C116_even", "C116_ttt"], "false for batches of more than one game (C116_refuted: TicTacToe, two games, nine iterations); proved for single games with the factor of the priors, and for all batches as a lower bound on the visits of the winning move"),
 ("C117", P, ["C117_tree", "C117_search", "C117_batch", "C117_store", "C117_actions", "C117_actions_injective"], "the decimal formats of f32 and the Debug form of an action are parameters without line breaks and tabs; for the moves of both games this is proved"),
 ("C118", Q, ["C118_gradient", "C118_optimizer", "C118_first", "C118_partial", "C118_refuted_decay", "C118_refuted"], "proved for the first step of an optimizer, for the loss plus wd/2 times the squares of the trained variables (the loss itself without weight decay), over the real numbers; for the loss alone with weight decay and for every later step of the optimizer it is refuted (for losses linear in one variable)"),
 ("C119", P, ["C119_doubles", "C119_home_needed"], "the property is restricted to positions without opposing checkers in the home board of the mover, as C15; C119_home_needed shows that the restriction is needed"),
 ("C120", P, ["C120_rounds", "C120_tail", "C120_expected", "C120_fair", "C120_unbounded"], "the numbers taken from the tape per round are bounded from above by the worst case, so the bounds are explicit but very large"),
 ("C121", P, ["C121_law", "C121_possible", "C121_panics", "C121_safe"], "the generators of the threads are independent and produce identically distributed numbers; a schedule does not look ahead"),
 ("C122", Q, ["C122_refuted", "C122_silent", "C122_untrained", "C122_odd", "C122_files", "C122_partial"], "false: the io::Result of get_all_paths_rec is dropped, so the command trains on the directories found before the first failure, or saves untrained weights; names that are not Unicode and unreadable data files panic; without failures the data is that of the model used in C50, C51, C66 and C88; failures of is_dir and exists are not modelled"),
 ("C123", P, ["C123_independent", "C123_single", "C123_wins", "C123_tictactoe"], "for random players and players with the plain search; the random numbers are independent and equally distributed; C123_single needs matches that do not panic, which C58 gives for TicTacToe"),
 ("C124", P, ["C124_game", "C124_wins", "C124_average"], "the counts are evaluated in the kernel with tables whose correctness is proved; the numbers are uniform modulo 1 to 9, as those below 2520"),
 ("C125", P, ["C125_plain", "C125_batched", "C125_tictactoe_plain", "C125_tictactoe", "C125_backgammon"], "counts nodes and their entries, not bytes; the depth of a recursion is the bound with which the model of the function gives its unbounded result"),
 ("C126", P, ["C126_dice", "C126_choose", "C126_shuffle", "C126_positions", "C126_ends", "C126_roll", "C126_pick", "C126_model", "C126_game"], "rand 0.8 is not part of the repository: widening multiplication with rejection and the shuffle are written down from the algorithm of that version; thread_rng is idealised as independent uniform 32-bit words"),
 ("C127", P, ["C127_exchange", "C127_law", "C127_tictactoe", "C127_equal"], "C127_exchange and C127_law are for any game with a relation that exchanges the players; Backgammon has none, the code treats its colours differently (C25)"),
 ("C128", P, ["C128_tictactoe"], "follows from C115 (the rollouts of the search report nothing), C123 (the games are independent) and C127 (exchanged marks); the move orders of the examples are for the exact arithmetic demoFloats"),
 ("C129", P, ["C129", "C129_far", "C129_quiet", "C129_tictactoe", "C129_opening", "C129_single", "C129_backgammon", "C129_backgammon_opening"], "the scores enter by three comparisons (structure Explores), proved for the exact formula and for single precision with a logarithm of relative error 2^-22"),
 ("C130", P, ["C130", "C130_lost", "learn_of", "learn_has"], "the text is read by a reader that does not use the printer; the progress bars are left out; the win rate is computed in f64"),
 ("C131", Q, ["C131_tictactoe", "C131_backgammon", "C131_partial", "C131_attached", "C131_rejected", "C131_refuted", "play_many"], "false for ids that begin with a hyphen: the parser refuses every command line with such a word after --run-id or -r; true for the other ids, and for all of them if written --run-id=ID or -rID"),
 ("C132", P, ["C132_more", "C132_less", "C132_game", "C132_backgammon", "C132_equal", "C132_random"], "from C123 (independence), C96 (matches end), C124 and C127; network players are not covered, their games are coupled by the batches (C112)"),
 ("C133", P, ["C133_tictactoe", "C133_backgammon", "C133_reports", "C133_determines", "C133_tictactoe_words", "C133_backgammon_words"], "the output is read by an independent reader (lines by their labels, words between marks); the positions after the turns are not covered, they are wrong (C73)"),
 ("C134", P, ["C134", "C134_learn", "C134_lost", "C134_play", "C134_train", "C134_files", "C134_data", "C134_main", "learn_returns", "C134_runs"], "files are texts at paths, the training data is a tree for each game; the format of network files is a parameter of which reading back is assumed (C62); links and failing disks are left out"),
 ("C135", P, ["C135_bounded", "C135_rest", "C135_undecayed", "C135_network"], "over the real numbers; the gradient is an arbitrary function; C135_network is for the entries of the trained variables of the network"),
 ("C136", P, ["C136_visits", "C136_batch", "C136_tensor", "C136_vec", "C136_pos", "C136_total", "C136_nan", "C136_mix", "C136_priors", "C136_search", "C136_finished"], "in f32, rounded to nearest even; the order of adding up is a parameter"),
 ("C137", P, ["C137_softmax", "C137_last", "C137_finite", "C137_centre"], "in f32, rounded to nearest even; the exponential function of the library is a parameter with the stated accuracy"),
 ("C138", P, ["C138_played", "C138_backgammon"], "the power function of the library is a parameter with the stated accuracy; for the single search see C98 (it always panics, C43)"),
 ("C139", P, ["C139_coupling", "C139_shares", "C139_backgammon"], "for batches in which some games select finished positions while others do not the claim fails already without chance: C112_refuted"),
 ("C140", P, ["C140_length", "C140_attained"], "also used for how long games are far from their end in C112, C129 and C139"),
 ("C141", P, ["C141_game", "C141_run", "C141_limit", "C141_attained", "C141_match"], "from C140 and the histories of C64 and C55; C141_attained shows a history that meets the description of C64, not a run that produces it"),
 ("C142", P, ["C142_openings", "C142_single", "openings_unique", "C142_sides", "C142_match", "C142_games", "C142_unlike"], "the move of C129, with the list of legal moves computed for each roll; runs in which the search panics at a position without legal moves (C32) return no move"),
 ("C143", P, ["C143_game", "C143_run"], "hypotheses of C46 for TicTacToe: PwWarm 9, limit >= 9, iterations != 0"),
 ("C144", P, ["C144_fragments", "C144_steps", "C144_example", "C144_run", "C144_drift"], "PwWarm 9 as in C46; the bound on the weights is over the real numbers (C108)"),
 ("C145", P, ["C145_stored", "C145_example"], "hypotheses as in C144; the directory of the run is as learn_parallel leaves it (C84_saved)"),
 ("C146", P, ["C146_stages"], "hypotheses as in C143; the marks are counted in the recorded tensors"),
 ("C147", P, ["C147_tictactoe", "C147_backgammon", "C147_normal"], "texts are accepted as in the model of serde_json (Text/Json, Versus/Saved)"),
]
src = ""
for d, _, fs in os.walk(os.path.join(ROOT, "lean/Verif")):
    for f in fs:
        if f.endswith(".lean"): src += open(os.path.join(d, f)).read()
names = set(re.findall(r"^theorem\s+([\w.']+)", src, re.M))
bad = [t for _, _, ts, _ in T for t in ts if t not in names]
if bad: sys.exit("unknown theorems: %s" % bad)
ids = [json.loads(l)["id"] for l in open(os.path.join(ROOT, "properties.jsonl"))]
print("without claim:", [i for i in ids if i not in [t[0] for t in T]])
json.dump({"claims": [dict(property=a, status=b, theorems=c, note=d) for a, b, c, d in T]},
          open(os.path.join(ROOT, "MANIFEST.json"), "w"), indent=1)
