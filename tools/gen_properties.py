#!/usr/bin/env python3
"""Writes ../properties.jsonl from the table below (one place to edit; the jsonl is the deliverable)."""
import json, os
P = []
def c(title, statement, quantifier, why, anchors):
    P.append(dict(id=f"C{len(P)+1:02d}", title=title, statement=statement, quantifier=quantifier,
                  why_tests_cant=why, anchors=anchors))

BG = "src/backgammon/backgammon_logic.rs"
EN = "src/backgammon/encoding.rs"
TT = "src/tictactoe/mod.rs"
ND = "src/mcts/node.rs"; NS = "src/mcts/node_store.rs"; SM = "src/mcts/simple_mcts.rs"
AM = "src/mcts/alpha_mcts.rs"; UT = "src/mcts/utils.rs"; NO = "src/mcts/noise.rs"
AZ = "src/alphazero/alphazero.rs"; AP = "src/alphazero/alpha_parallel.rs"; AN = "src/alphazero/alpha_no_parallel.rs"
AV = "src/alphazero/alpha_versus.rs"; NN = "src/alphazero/nnet.rs"; VS = "src/versus.rs"; MN = "src/main.rs"

# ---------------------------------------------------------------- backgammon rules
c("Checker conservation",
  "Starting from Backgammon::new(), after any sequence of die rolls, applied moves taken from get_valid_moves and skipped turns, each player owns exactly 15 checkers counting points, bar and collected ones, so is_valid() never fails its assertion.",
  "every finite history of rolls, legal moves and skips, every dice outcome",
  "The set of histories is infinite; a unit test replays a handful of positions.",
  [f"{BG}: Backgammon::get_next_state, apply_move, skip_turn, is_valid, get_valid_moves"])
c("No panic and no integer overflow in play",
  "In every position reachable from new() by rolling, playing moves returned by get_valid_moves and skipping, the calls get_valid_moves, apply_move on a returned move, skip_turn, check_winner, is_valid, encode on a returned move and as_tensor finish without a panic (index out of bounds, i8/u8/u32 overflow, failed unwrap or assert), and compute the same result with overflow checks on (debug) and off (release).",
  "every reachable position, every dice outcome, both build profiles",
  "A panic needs one bad position among all reachable ones; overflow in release mode is silent.",
  [f"{BG}: get_valid_moves, apply_move, encode, decode, as_tensor, is_valid"])
c("Turn order and doubles",
  "After apply_move the turn passes to the opponent with freshly rolled dice and the second-play flag cleared, except after the first half of a double, where the same player keeps the same dice and the second-play flag is set; skip_turn always passes the turn and clears the flag. Along any history the flag is only ever set while the dice are equal and no player ever plays more than two half-turns in a row.",
  "every history of moves and skips from new(), every dice outcome",
  "The alternation is a statement about all histories, including doubles followed by skips.",
  [f"{BG}: apply_move, skip_turn, roll_die, get_player"])
c("Bar has priority",
  "In every move returned by get_valid_moves, a checker is moved from a board point or collected only if the mover has no checker left on the bar at that moment; while a checker is on the bar every checker move is an entry from the bar.",
  "every valid position, player, roll and returned move, each prefix of the move",
  "The rule must hold for every board and for intermediate positions inside a move.",
  [f"{BG}: _get_action_trees, get_entry_moves, get_normal_moves"])
c("No landing on a made point",
  "No checker move inside a returned move lands on a point holding two or more opposing checkers in the position at that moment.",
  "every valid position, player, roll, returned move and prefix of it",
  "Quantifies over all boards and intermediate positions.",
  [f"{BG}: get_entry_moves, get_normal_moves"])
c("Every checker move consumes exactly one die",
  "A returned move assigns its checker moves to distinct dice of the roll (at most two checker moves per half-turn): a non-collecting move travels exactly the die's distance in the mover's direction (entries from the mover's starting edge), and a collecting move uses a die at least as large as the distance to leave the board.",
  "every valid position, player, roll and returned move",
  "Needs all boards and rolls; a sampled test never covers each pairing of dice and points.",
  [f"{BG}: get_valid_moves, _get_children_of_node_action, get_normal_moves, get_entry_moves"])
c("Bearing off only with all checkers home",
  "A collecting checker move is offered only when, at that moment, the mover has no checker on the bar and none outside the home board.",
  "every valid position, player, roll, returned move and prefix of it",
  "Must hold also in the middle of a move, for every board.",
  [f"{BG}: is_collectible, get_normal_moves"])
c("Bearing off with a larger die only from the rearmost point",
  "If a collecting move uses a die larger than the distance of the checker, then the mover has no checker farther from home edge than that checker (the standard bear-off rule).",
  "every valid position, player, roll and returned move",
  "The violating positions need opposing checkers inside the home board; random tests rarely build them.",
  [f"{BG}: get_normal_moves (left_sum)"])
c("Every legal two-checker play is available",
  "For every sequence of two single-checker moves that is legal by the rules of backgammon and uses the two dice in either order, get_valid_moves contains a move leading to the same board; and every legal first checker move starts a play whose final board is the final board of a returned move.",
  "every valid position, player and roll; every rule-legal play",
  "Completeness ranges over all legal plays in all positions.",
  [f"{BG}: get_valid_moves, get_normal_moves, get_entry_moves, remove_duplicate_states"])
c("Returned moves lead to pairwise different boards",
  "No two moves returned by get_valid_moves produce the same board, and de-duplication never loses a board: every generated sequence's final board is the final board of exactly one kept move, which is the first such sequence.",
  "every position, player, roll; every list of sequences",
  "Uniqueness and no-loss must hold for all boards.",
  [f"{BG}: remove_duplicate_states, get_valid_moves"])
c("Returned moves cannot be extended",
  "No returned move stops early: after playing it, no unused die admits a further generated checker move.",
  "every valid position, player, roll and returned move",
  "A statement about all boards and all continuations.",
  [f"{BG}: _get_action_trees, extract_sequences_list"])
c("Both dice must be used when possible",
  "If some play uses both dice then every returned move uses both dice (the standard rule that a player must play as many dice as possible).",
  "every valid position, player and roll",
  "The violating boards are rare; a test has to guess one.",
  [f"{BG}: get_valid_moves"])
c("No moves exactly when stuck",
  "get_valid_moves is empty if and only if no single checker move is legal for either die; in that case and only then a turn has to be skipped.",
  "every valid position, player and roll",
  "Both directions quantify over all boards.",
  [f"{BG}: get_valid_moves"])
c("Dice order is irrelevant",
  "get_valid_moves returns the same list for roll (a,b) and roll (b,a).",
  "every position (valid or not), player and pair of dice",
  "The repository tests one position.",
  [f"{BG}: get_valid_moves"])
c("Move generation equals the rules (refinement)",
  "When the mover's home board holds no opposing checker, the boards reachable through get_valid_moves are exactly the final boards of the maximal rule-legal plays of the two dice: nothing illegal is offered and nothing legal is missing.",
  "every valid position without opposing checkers in the mover's home board, player, roll",
  "An equality of two sets for all boards.",
  [f"{BG}: get_valid_moves, get_next_state"])
c("Effect of a checker move",
  "get_next_state on a legal checker move moves exactly one of the mover's checkers from the stated source (point or bar) to the stated destination (point or collected), sends exactly one opposing checker to the bar if and only if the destination held a single one, and changes nothing else; a sequence of actions is the composition of its single actions.",
  "every valid position, player and legal checker move; every action list",
  "Frame conditions range over all 24 points and all boards.",
  [f"{BG}: get_next_state"])
c("Progress of the race",
  "Each checker move lowers the mover's pip count by at least one and by at most the die used, and never lowers the opponent's; a player's collected count never decreases along a history.",
  "every valid position, player, roll and returned move; every history",
  "A monotonicity statement over all boards and histories.",
  [f"{BG}: get_next_state, get_valid_moves"])
c("Winner detection",
  "check_winner reports a player if and only if that player has collected all 15 checkers; in a history that stops at the first winner at most one player ever qualifies and the winner is the player who just moved; a player who has qualified keeps qualifying whatever is played afterwards.",
  "every reachable position and history",
  "Quantifies over all histories, including play that goes on after the end.",
  [f"{BG}: check_winner, check_win_without_player, check_win"])
c("Move codes are in range",
  "For every move returned by get_valid_moves, encode accepts it (at most two checker moves) and its code is smaller than ACTION_SPACE_SIZE = 1352, and differs from the code 1351 reserved for the empty move.",
  "every valid position, player, roll and returned move",
  "An out-of-range code is an index panic in the network code; it needs one bad move among all.",
  [f"{BG}: encode, get_valid_moves", f"{EN}: encode"])
c("Decode inverts encode on legal moves",
  "decode(encode(m)) == m for every move m returned by get_valid_moves, and for the empty move.",
  "every valid position, player, roll and returned move",
  "The code stores only source points and a die-order bit; recoverability has to hold in every case of the flag logic.",
  [f"{BG}: encode, decode", f"{EN}: encode, decode"])
c("Distinct legal moves have distinct codes",
  "Two different moves returned by get_valid_moves in one position never share a code, so the visit counts and priors of different moves never overwrite each other.",
  "every valid position, player, roll and pair of returned moves",
  "Pairs of moves over all boards.",
  [f"{BG}: encode, get_valid_moves", f"{UT}: get_prob_tensor, turn_policy_to_probs"])
c("The two encoder implementations agree",
  "The inherent encode/decode (used by method-call syntax on Backgammon) and the LearnableGame trait encode/decode (used by the generic search code) return the same result on every input.",
  "every state, action list and code",
  "Two copies of the code must agree on all inputs.",
  [f"{EN}: Backgammon::encode, Backgammon::decode", f"{BG}: LearnableGame::encode, LearnableGame::decode"])
c("The network input determines the backgammon state",
  "as_tensor of a rolled position has shape [1,6,4,6] and two states with equal tensors have equal board, bar, collected counts, player, roll and second-play flag; as_tensor refuses a position whose dice were never rolled.",
  "every pair of states",
  "Injectivity ranges over all pairs of states.",
  [f"{BG}: as_tensor"])
c("No mutual bar deadlock",
  "No position reachable by legal play has both players with a checker on the bar facing a fully closed opposing home board; so it never happens that both players are shut out for every dice outcome by closed boards.",
  "every reachable position",
  "Reachability invariant over all histories.",
  [f"{BG}: get_valid_moves, apply_move, skip_turn"])
c("Colour symmetry",
  "Mirroring the board (reversing the points, swapping colours, bar and collected counts, and the player) mirrors the set of boards reachable through get_valid_moves.",
  "every valid position, player and roll",
  "The two colours are coded separately; equivalence ranges over all boards.",
  [f"{BG}: get_normal_moves, get_entry_moves, is_collectible"])
# ---------------------------------------------------------------- tic tac toe
c("TicTacToe positions stay consistent",
  "From new(), after any sequence of legal moves, cells hold only -1, 0, 1, the player to move is the one with fewer or equally many marks according to who started, no cell is overwritten, and at most one player has a completed line as long as play stops at the first winner.",
  "every history of legal moves",
  "All histories.",
  [f"{TT}: apply_move, get_valid_moves, check_winner"])
c("TicTacToe winner detection",
  "check_winner returns a player exactly when that player owns a full row, column or diagonal (in any position where not both do), 0 exactly when the board is full without a line, and None otherwise.",
  "every board over {-1,0,1}",
  "The tests sample a few boards.",
  [f"{TT}: check_winner"])
c("TicTacToe games end",
  "A game of legal moves lasts at most nine moves, a position has a legal move exactly when the board is not full, and a position without a winner always has a legal move.",
  "every history of legal moves",
  "All histories.",
  [f"{TT}: get_valid_moves, apply_move, check_winner"])
c("TicTacToe move codes",
  "encode of a legal move is below ACTION_SPACE_SIZE = 9 and decode inverts encode on every move; decode panics exactly on codes above 255.",
  "every move and code",
  "All u8 moves and u32 codes.",
  [f"{TT}: encode, decode"])
c("The network input determines the TicTacToe state",
  "as_tensor determines the whole position, including the player to move.",
  "every pair of positions",
  "Pairs of positions.",
  [f"{TT}: as_tensor"])
# ---------------------------------------------------------------- plain MCTS
c("MCTS returns a legal move",
  "mct_search on a non-terminal state with at least one iteration, if it returns, returns a move contained in get_valid_moves of that state; on a terminal state or with zero iterations it returns EMPTY_MOVE.",
  "every game, state, configuration, random stream and float comparison outcome",
  "All random rollouts and tree shapes.",
  [f"{SM}: mct_search, select_most_visits", f"{ND}: expand"])
c("MCTS never panics",
  "mct_search returns a move (does not panic) from every reachable state of either game for every configuration.",
  "every reachable state of TicTacToe and Backgammon, configuration and random stream",
  "A panic needs a particular tree and dice.",
  [f"{SM}: mct_search", f"{ND}: expand, simulate"])
c("Rollouts report the outcome of the simulated game",
  "Node::simulate returns 1 / -1 / 0 according to whether the given player wins / loses / draws the simulated game.",
  "every state, player, limit and random stream",
  "Random playouts; tests would need to fix the generator.",
  [f"{ND}: simulate"])
c("Visit accounting of MCTS",
  "After n iterations the root has exactly n visits (up to the f32 counting limit 2^24), every node's visits equal the number of iterations whose selected or created node lies in its subtree, and the visits of the root's children add up to n.",
  "every game, configuration, n and random stream",
  "Induction over iterations and tree shapes.",
  [f"{SM}: mct_search, backpropagate"])
c("Backpropagation touches exactly the path to the root",
  "backpropagate adds one visit and the result to the given node and each of its ancestors exactly once, changes no other node and no other field, and terminates.",
  "every well-formed store, node and result",
  "All tree shapes and depths.",
  [f"{SM}: backpropagate", f"{NS}: get_node_as_mut"])
c("The search tree stays well formed",
  "Throughout a search every node's index is its position, its parent has a smaller index and lists it exactly once as a child, its action is a legal move of its parent's state, its state results from playing that action there, and the moves not yet expanded together with the children's actions are exactly the legal moves of its state.",
  "every game, configuration, random stream and number of iterations",
  "Invariant of all executions.",
  [f"{NS}: add_node, set_node", f"{ND}: expand, alpha_expand, alpha_expand_tensor"])
c("The most visited child is chosen",
  "select_most_visits returns the action of a child of the root whose visit count is maximal among the children.",
  "every well-formed store",
  "All stores.",
  [f"{SM}: select_most_visits"])
# ---------------------------------------------------------------- AlphaZero search
c("Batched search keeps games and roots aligned",
  "After alpha_mcts_parallel on states s_0..s_{n-1}, node i is the parentless root of s_i for each i < n, no other node is parentless, and every other node descends from exactly one root, so get_root_nodes returns the roots in the order of the states.",
  "every list of states, network output, configuration and random stream",
  "All batch sizes and executions.",
  [f"{AM}: alpha_mcts_parallel", f"{NS}: get_root_nodes", f"{VS}: get_actions_for_player"])
c("Search probabilities form a distribution over legal moves",
  "The vector returned by get_prob_tensor / a row of get_prob_tensor_parallel is non-negative, is zero outside the codes of legal moves of the root state, gives each root child its share of the visits, and sums to 1 whenever some child was visited (in exact arithmetic).",
  "every searched state of either game",
  "All visit vectors.",
  [f"{UT}: get_prob_tensor, get_prob_tensor_parallel"])
c("A sampled action is always legal",
  "An action index drawn with weighted_select_tensor_idx from the (tempered) search probabilities of a root decodes to a member of get_valid_moves of the root state, so the assertions in self_play_parallel and play never fail for a Model player.",
  "every reachable state of either game, every visit vector, every random draw",
  "A failing assert aborts a long training run; it needs one bad code.",
  [f"{AP}: self_play_parallel", f"{VS}: play, get_actions_for_player", f"{AZ}: weighted_select_tensor_idx"])
c("One visit per game and iteration in batched search",
  "Each iteration of alpha_mcts_parallel adds exactly one visit to the root of every game in the batch.",
  "every batch, configuration, network output",
  "The failure needs one game of the batch to select a finished position while another does not.",
  [f"{AM}: alpha_mcts_parallel (selected_nodes_idxs)"])
c("Batched search does not depend on hash-set order",
  "The result of the selection phase of alpha_mcts_parallel (store and selected nodes) is the same for every iteration order of the HashSet of games.",
  "every iteration order, batch and store",
  "The iteration order of a HashSet is randomised per process.",
  [f"{AM}: alpha_mcts_parallel (games: HashSet)"])
c("Single-game AlphaZero search does not panic",
  "alpha_mcts returns for every non-terminal state (Some probabilities, or None if there is no legal move).",
  "every state, network output and configuration",
  "The panic depends on which leaves the search selects.",
  [f"{AM}: alpha_mcts, apply_dirichlet_to_root", f"{UT}: turn_policy_to_probs"])
c("Priors are a distribution over legal moves",
  "turn_policy_to_probs(_tensor/_tensor_parallel) of a strictly positive network policy is zero outside legal codes and sums to 1 over the legal moves, and mixing with Dirichlet noise keeps non-negative priors summing to 1 (in exact arithmetic).",
  "every policy vector, legal-move set, noise sample and epsilon in [0,1]",
  "All policy vectors.",
  [f"{UT}: turn_policy_to_probs, turn_policy_to_probs_tensor, turn_policy_to_probs_tensor_parallel", f"{NO}: apply_dirichlet"])
# ---------------------------------------------------------------- self play and training
c("Self-play outcome labels (batched)",
  "In self_play_parallel every fragment of a game that ends with a winner is labelled 1 if recorded by the winner's side, -1 if by the loser's side and 0 on a draw.",
  "every batch, game history and winner",
  "All histories.",
  [f"{AP}: self_play_parallel"])
c("Each self-play fragment is emitted exactly once",
  "self_play_parallel returns each recorded fragment of each game exactly once.",
  "every batch and execution, including games reaching the round limit",
  "Needs a game that wins exactly in the round where the limit is noticed.",
  [f"{AP}: self_play_parallel (round limit)"])
c("Self-play outcome labels (single game)",
  "self_play labels the fragments of a drawn game 0 and of a decided game 1 for the winner and -1 for the loser.",
  "every game history",
  "All histories.",
  [f"{AN}: self_play"])
c("Training batches partition the data",
  "One train epoch presents every fragment exactly once, in batches of at most training_batch_size, all of them full except possibly the last.",
  "every data size, batch size >= 1 and shuffle",
  "All sizes and permutations.",
  [f"{AZ}: train"])
c("Training data survives save and load",
  "load_training_data after save_training_data returns the fragments that were saved, in order, with the same outcomes, probabilities and states.",
  "every non-empty list of fragments",
  "All sizes, including a single fragment.",
  [f"{AZ}: save_training_data, load_training_data"])
c("Train uses every saved fragment once",
  "The train command over a learn directory written by learn_parallel loads every fragment produced by its self-play iterations exactly once.",
  "every number of self-play iterations and fragment lists",
  "All run shapes.",
  [f"{AP}: learn_parallel", f"{MN}: get_all_paths_rec, handle_command", f"{AZ}: load_training_data"])
c("The --self_play selector trains on the selected directory",
  "train with run id, learn index and self-play index loads the data of that self-play directory.",
  "every directory layout written by learn_parallel",
  "Directory layouts and names.",
  [f"{MN}: get_all_paths_rec, handle_command (Train)"])
c("The best model is only replaced by a clearly better one",
  "play_vs_best_model overwrites an existing best model exactly when the new model won at least 55% (220) of the 400 games, and creates it when there is none.",
  "every match result",
  "Boundary behaviour over all results.",
  [f"{AV}: play_vs_best_model, play_vs_model", f"{VS}: play"])
# ---------------------------------------------------------------- versus
c("Match accounting",
  "When play returns, every one of the 400 games has finished exactly once, wins_p1 + wins_p2 + draws = n_games = 400, and games has 400 entries with the recorded winner matching the counts.",
  "every pair of players, random stream and hash-map order",
  "All executions of a randomised match.",
  [f"{VS}: play"])
c("Each player starts half of the games",
  "Player 1 is to move first in exactly 200 of the 400 initial games and player 2 in the other 200.",
  "every random stream, both games",
  "All dice.",
  [f"{VS}: play", f"{BG}: skip_turn", f"{TT}: skip_turn"])
c("Only legal moves are played in a match",
  "Every move applied by play is a member of get_valid_moves of the game it is applied to, and it is the move computed for that same game by the player whose turn it is.",
  "every pair of players, random stream and hash-map order",
  "Pairing actions with games must hold for every partition of the pool.",
  [f"{VS}: play, get_actions_for_player"])
c("Saved games contain the turns played",
  "The Game records returned by play (and saved by the play command) contain the turns of the game, so that replay shows them.",
  "every match",
  "A statement about the whole history of a match.",
  [f"{VS}: play, Game, Turn, print_game"])
c("The round limit ends every game",
  "Every game of play is finished after at most 400 rounds.",
  "every pair of players, random stream",
  "Needs unbounded histories of skipped turns.",
  [f"{VS}: play (round_limit)"])
c("TicTacToe matches of random players terminate",
  "play between two Random players on TicTacToe returns after at most nine rounds.",
  "every random stream and hash-map order",
  "All executions.",
  [f"{VS}: play", f"{TT}: get_valid_moves"])
# ---------------------------------------------------------------- network, config, cli
c("Network shapes fit both games",
  "For both games and every batch size the network accepts the stacked as_tensor inputs and returns a policy of shape [batch, ACTION_SPACE_SIZE] and a value of shape [batch, 1].",
  "every batch size, both games",
  "All batch sizes.",
  [f"{NN}: ResNet::new, forward_t, forward_policy", f"{BG}: as_tensor", f"{TT}: as_tensor"])
c("Negative counts in the configuration are rejected",
  "A negative integer for iterations, simulate_round_limit or another count is reported as a configuration error.",
  "every configuration value",
  "All i64 values.",
  ["src/lib.rs: MctsConfig::from_config", f"{AZ}: AlphaZeroConfig::from_config"])
c("A stored model is loaded before training",
  "AlphaZero::new with the path of a stored model gives a network whose variables have the stored values.",
  "every stored model",
  "The order of creating and loading variables decides; a test would need a stored model.",
  [f"{AZ}: AlphaZero::new", f"{NN}: ResNet::new"])
c("A saved network is restored by from_path",
  "Saving the variables of a network and loading them with ResNet::from_path gives a network with the same variables.",
  "every network",
  "All values of the variables.",
  [f"{NN}: ResNet::from_path", f"{AZ}: learn_parallel"])
c("Batched search does not panic",
  "alpha_mcts_parallel returns for every non-empty batch of valid states of either game, every network output, number of iterations and random stream, provided the Dirichlet parameter is positive.",
  "every batch, network output, configuration, random stream",
  "All executions of the search.",
  [f"{AM}: alpha_mcts_parallel", "src/mcts/utils.rs: turn_policy_to_probs_tensor_parallel, turn_policy_to_probs_tensor"])
c("Batched self-play ends",
  "self_play_parallel returns without panic after at most simulate_round_limit + 1 passes, every move it plays is legal, and a player with a legal move passes only if all powers of the visit shares are zero (see C81), for at least one search iteration and a positive temperature.",
  "every number of games, round limit, network output, hash map order, random stream, both games",
  "All executions of a randomised loop around a randomised search.",
  ["src/alphazero/alpha_parallel.rs: self_play_parallel"])
c("Training batches hold the right rows",
  "The outcome, probability and state tensors built by train for a batch of k fragments have shapes [k, 1], [k, N] and [k, state shape], and row j of each of them is taken from fragment j, for fragments of self-play and for loaded ones.",
  "every batch of fragments, both state layouts",
  "All batch sizes and contents; a mismatch between the tensors would silently train on wrong targets.",
  [f"{AZ}: train"])
c("Training on all data loads all runs",
  "The train command without selectors loads the data of every run below the data directory, whatever the run ids are.",
  "every set of runs with different ids",
  "Run ids are random strings; the directory search looks for names containing sp.",
  ["src/main.rs: get_all_paths_rec, handle_command (Train)", "src/alphazero/alpha_parallel.rs: learn_parallel"])
c("Matches do not panic",
  "play between Random and Model players (a network and valid configuration given), and on TicTacToe also Mcts players, never panics; on Backgammon a match can only continue beyond 400 rounds while both players of some game keep passing because they have no legal move.",
  "every pair of such players, network output, hash map order, random stream, both games",
  "All executions of a randomised match of randomised players.",
  ["src/versus.rs: play, get_actions_for_player"])
c("Positions of a batch are evaluated independently",
  "In evaluation mode the policy row and the value of a position in a batch are those of the position evaluated alone, whatever the other positions of the batch are.",
  "every batch, position, game, values of the variables, arithmetic",
  "All batches; with batch statistics (training mode) it would be false.",
  [f"{NN}: forward_t", "src/mcts/alpha_mcts.rs: alpha_mcts, alpha_mcts_parallel"])
c("Network outputs are distributions and bounded values",
  "In exact arithmetic every policy row is a probability distribution giving every action code a positive probability, and every value lies strictly between -1 and 1.",
  "every batch, both games, values of the variables, both modes",
  "All values of the variables and inputs.",
  [f"{NN}: forward_t, policy_head, value_head"])
c("The board validity check is exact",
  "is_valid passes its assertion exactly on boards with 15 checkers of each side, counting points, bar and collected checkers.",
  "every value of the board type, both build profiles",
  "All boards of machine integers; sums of i8 can overflow and casts can wrap.",
  [f"{BG}: is_valid"])
c("A saved game is loaded unchanged",
  "load_game on the file written by save_game returns the same Game record, for both games, all ids, agents, turns and states.",
  "every game record",
  "All strings and numbers; escaping, optional fields and number ranges.",
  ["src/versus.rs: save_game, load_game, Game, Turn, Agent", f"{BG}: Backgammon", f"{TT}: TicTacToe"])
c("All saved games are found again",
  "After the play command load_all_games on the output directory returns exactly the 400 games of the match, whatever the directory order is.",
  "every match result, directory order, ids (pairwise different)",
  "All matches and directory orders.",
  ["src/main.rs: handle_command (Play)", "src/versus.rs: save_game, load_all_games"])
c("A replayed game shows the positions of the game",
  "print_game on a saved game prints the initial position and then, for every turn, the position after it.",
  "every game",
  "All games.",
  ["src/versus.rs: print_game"])
c("A truncated game file is rejected",
  "load_game on a proper prefix of a file written by save_game returns an error, never a game; load_all_games then returns an error as well.",
  "every game record, every cut",
  "All cut positions of all files.",
  ["src/versus.rs: load_game, load_all_games"])
c("Agents on the command line",
  "The play command accepts an agent exactly if it is one of model, mcts and random, in any capitalisation.",
  "every string",
  "All strings.",
  ["src/main.rs: handle_command (Play)"])
c("Network players have a network",
  "The play command never starts a match with a network player that has no network: a missing model path is reported before.",
  "every command line",
  "All command lines.",
  ["src/main.rs: handle_command (Play)", "src/versus.rs: get_actions_for_player"])
c("Mean values stay between -1 and 1",
  "In every tree built by mct_search or alpha_mcts_parallel, the value of every node visited less than 2^24 times is a finite number of absolute value at most its number of visits, so win_pct and the exploitation term lie in [-1, 1].",
  "every game, searched positions, iteration count, random stream, hash set order, network with values in [-1, 1], rounding of sums",
  "All trees; rounding errors of thousands of additions could push the mean outside.",
  [f"{ND}: backpropagate, simulate, win_pct", f"{SM}: mct_search", f"{AM}: alpha_mcts_parallel"])
c("Recorded values are seen from the root player",
  "Every iteration of alpha_mcts_parallel adds to the nodes on the path the value of the leaf for the player to move at the root: the outcome of a finished game, and otherwise the network's value, negated if the opponent is to move at the leaf (the network is trained on values for the player to move).",
  "every game, position, number of iterations, network, random stream",
  "All trees; a wrong sign still gives plausible numbers.",
  [f"{AM}: alpha_mcts_parallel", f"{AP}: self_play (labels)"])
c("The search expects the opponent's best replies",
  "Where the opponent is to move, selection does not take a child while an equally often visited child has a lower value for the searching player.",
  "every tree built by mct_search and alpha_mcts_parallel, exact arithmetic",
  "All trees; the search still returns legal moves when it is wrong.",
  [f"{SM}: select_ucb", f"{AM}: select_alpha", f"{ND}: ucb, alpha_ucb"])
c("An immediate win is taken",
  "If some legal move wins at once and mct_search runs at least as many iterations as there are legal moves (so that every move is tried), it returns a move that wins at once.",
  "every game, position, exploration constant, number of iterations, random stream, exact arithmetic",
  "All positions and random streams; the search draws random rollouts and returns the most visited move.",
  [f"{SM}: mct_search, select_ucb, select_most_visits", f"{ND}: ucb, simulate"])
c("Only a player without legal moves passes",
  "In self_play_parallel a player who has a legal move makes one, for every positive temperature, although powers of visit shares may underflow to zero in f32.",
  "every game, network, number of games, positive temperature, random stream, rounding of powers to f32",
  "All temperatures and searches; the effect needs a low temperature and visits spread over many moves.",
  [f"{AP}: self_play_parallel", "src/versus.rs: get_actions_for_player"])
c("The loss is least at the targets",
  "The loss that train minimises, of a batch whose policy targets are distributions, is at least the mean entropy of the targets, and equal to it only if for every position of the batch the network's policy is the recorded target and its value the recorded outcome.",
  "every network built by ResNet::new with any weights, batch of training fragments, exact real arithmetic",
  "All weights and batches; a loss with a wrong sign, axis or normalisation still decreases during training.",
  ["src/alphazero/alphazero.rs: train", "src/alphazero/nnet.rs: forward_train"])
c("Policy targets are distributions",
  "In the fragments recorded by self_play_parallel the policy target is a probability distribution on the legal moves of the recorded position.",
  "every game, network, number of games, positive temperature, random stream",
  "All searches and temperatures; training does not check its targets.",
  [f"{AP}: self_play_parallel", "src/alphazero/alphazero.rs: train"])
c("A training run trains on its own games",
  "learn_parallel does learn_iterations iterations. In each, all games are played with the weights that the iteration before left, the weights change only by optimizer steps on batches of these games, in every epoch each fragment of every self-play iteration is in exactly one batch, no batch is longer than training_batch_size, and the data saved are these fragments. The same holds for learn, whatever its search: all fragments of all games of an iteration are learned, and the weights after iteration i are stored as model_i.",
  "every game, network, configuration, optimizer, random stream, hash map order and shuffle, for runs that return",
  "A run takes hours and its result is only judged by playing strength; stale or missing data do not fail.",
  [f"{AP}: learn_parallel", f"{AN}: learn", f"{AZ}: train, save_training_data"])
c("The models of a run are stored",
  "After learn_parallel the model directory holds the weights after iteration i in model_i.ot for every i, the best model is the first one or the last one that won at least 55 percent of the games against the best model of its time, and other files are as before.",
  "every game, network, configuration, random stream, whether or not the directory existed",
  "All runs; a lost or overwritten file is noticed when the run is over.",
  [f"{AP}: learn_parallel", f"{AV}: play_vs_best_model, play_vs_model"])
c("No NaN is stored",
  "Model files written by learn_parallel, learn and the train command hold no NaN.",
  "every network, optimizer, data",
  "NaN appear after particular sequences of updates.",
  [f"{AP}: learn_parallel", f"{AN}: learn", f"{MN}: Commands::Train"])
c("A training run returns",
  "learn_parallel returns without panic for at least one game, search iteration, round and batch element, a positive temperature and a network whose losses and weights stay finite.",
  "every number of iterations, games and epochs, random stream, both games",
  "All executions of nested randomised loops, including empty results.",
  [f"{AP}: learn_parallel, self_play_parallel", f"{AZ}: save_training_data, train", f"{AV}: play_vs_best_model"])
c("The train command trains on the selected data",
  "The train command makes one epoch over the data it has loaded, in which each fragment is in exactly one batch, starting from the weights of its network, and writes the resulting weights to the requested file and no other.",
  "every data directory, selection, network, optimizer, shuffle",
  "All data sets and batch sizes.",
  [f"{MN}: Commands::Train", f"{AZ}: train"])
c("The text of a Backgammon position shows it",
  "For every position that the game can reach to_pretty_str returns a text in which the column under the label of each point has the player's sign as often as the point has checkers, up to five rows and the number of the others, and in which the bar, the collected checkers, the dice and the player are named; so two positions with the same text have the same board, dice and player.",
  "every reachable board, roll and player, both build profiles",
  "All boards; a row taken from the wrong side or printed reversed is only seen by reading the board.",
  ["src/backgammon/backgammon_logic.rs: to_pretty_str"])
c("The text of a TicTacToe position shows the board",
  "Cell c of row r of the text of to_pretty_str is the content of field 3r + c, so positions with the same text have the same board.",
  "every board with any i8 in its fields",
  "All boards; tests do not read the text.",
  ["src/tictactoe/mod.rs: to_pretty_str"])
c("The next move of a position is legal",
  "get_next_move_for_state returns a legal move of the position, or the empty move if there is none, without panic.",
  "every position of both games that is not won, network, positive temperature, number of iterations, random stream",
  "The function has no caller; it needs a network.",
  [f"{AZ}: get_next_move_for_state, weighted_select_tensor_idx", "src/mcts/alpha_mcts.rs: alpha_mcts"])
c("The command line is understood",
  "The program accepts exactly the command lines that give, in any order and in any of the forms --name value, --name=value, -n value, -n=value, -nvalue, each declared option at most once with a value of its type, the game, and one command, possibly with -- as the last word; the fields have the values written.",
  "every list of words",
  "Unbounded words, orders and forms.",
  [f"{MN}: Args, Commands, LearnableGames"])
c("The documented example usages are accepted",
  "Each example usage in the README is accepted and says what its description says.",
  "all examples of the README, for every possible meaning",
  "Nothing runs the examples.",
  ["README.md: Example Usages", f"{MN}: Args, Commands"])
c("The requested number of threads is used",
  "The program runs with the number of threads given by --n-cpus, stops if that is more than the number of CPUs, and uses half of the CPUs, at least one, without the option.",
  "every number of CPUs and every value of the option",
  "Depends on the machine.",
  [f"{MN}: main, Args::n_cpus"])
c("Some player can move",
  "In every position without a winner that play can reach there are a player and a die with which the rules allow that player a move, and if the roll is the double of that die the code finds a move for the player.",
  "every position reachable by any players and dice from the start",
  "The positions in which one or both players are nearly blocked are rare among very many.",
  ["src/backgammon/backgammon_logic.rs: get_valid_moves, _get_valid_moves, check_winner"])
c("Backgammon matches end with probability one",
  "A match of random or network players ends with probability one, and the probability that it is over by round f tends to 1 as f grows, whenever each face of the next die has at least some fixed positive probability whatever was drawn before.",
  "every pair of random or network players, network, number of games, every such distribution of the random numbers",
  "A test that runs for a bounded time cannot show it; single endless executions exist (C57).",
  ["src/versus.rs: play, get_actions_for_player", "src/backgammon/backgammon_logic.rs: skip_turn, roll_die, apply_move"])
c("Move generation in every position",
  "In every position the boards offered are exactly the final positions of the plays that cannot be continued, by the rules with one change: a number larger than needed bears off from the rearmost point, closer than the number, behind which the home board holds at least as many opposing checkers as own ones. Every move that is legal by the rules is allowed by the changed ones, and any other bears off past an own checker.",
  "every valid board, both players, all dice, both build profiles",
  "All boards; the change only matters with opposing checkers in the home board during bearing off.",
  ["src/backgammon/backgammon_logic.rs: get_valid_moves, get_normal_moves"])
c("The probabilities of the drawn moves",
  "After a search the code of each legal move is drawn with probability v^(1/T) / sum of v'^(1/T), where v is the number of visits of the child reached by the move and v' ranges over those of all children; other codes have probability zero. A move is more likely than another exactly if it was visited more. As T tends to 0 the probability of a single most visited move tends to 1; as T grows the visited moves become equally likely.",
  "every search of at least one iteration, every temperature T > 0, every number drawn",
  "The draw is random; a test sees samples.",
  [f"{AZ}: weighted_select_tensor_idx", f"{UT}: get_prob_tensor_parallel"])
c("No legal move is abandoned by the search",
  "After N iterations of the plain search in a position with d <= N legal moves every legal move has been tried, and the number K of visits of its child satisfies N <= d(4K+1) or c ln(N/d - 1) <= 16 K, whatever the results of its rollouts were: every move is visited again and again as N grows.",
  "every game, position, random stream, exploration constant c >= 0, number of iterations below 2^24",
  "Concerns all results of rollouts, and large numbers of iterations.",
  [f"{ND}: ucb", f"{SM}: mct_search, select_ucb, select_leaf_node, backpropagate"])
c("The guarantees of the plain search and of the model gate hold in floating point",
  "With every operation rounded to the nearest float, ties to even (single precision in the search, double precision in the gate): adding 1.0 to a visit count is exact below 2^24 and does nothing from there on; the value of a node is a number of absolute value at most its visits; the gate adopts a model exactly from 220 wins of 400 and keeps the old one exactly up to 180; and a search with at most 2048 iterations, more iterations than legal moves and c ln(iterations) <= 10 plays a winning move if there is one; and with fewer than 65536 iterations no legal move is abandoned (C99 with 17 in place of 16).",
  "every game, position, random stream, exploration constant that is 0 or in [2^-100, 4], every implementation of ln with relative error at most 2^-22",
  "Concerns all roundings in a search, for all numbers of visits and all values.",
  [f"{ND}: ucb, win_pct", f"{SM}: mct_search, select_ucb, backpropagate", f"{VS}: play"])
c("The printed result of a match states its counts and its exact win rate",
  "The text printed after a match names the two agents, the wins of both, the draws and the 400 games as they were played, and a win rate that is exactly 100 times the wins of player one divided by 400.",
  "every match of every two agents, every number of wins",
  "Concerns the rounding and the shortest decimal text of 401 floating point numbers.",
  [f"{VS}: Display for PlayResult, play"])
c("A game saved by `play` can be replayed",
  "If the program with `play` (and paths of models without line breaks) returns, its printed result counts the 400 games that were played, it has written nothing but one file for each game, and running it with `replay` on the file of game i returns, prints the id of the game, both agents, the winner of game i and the position in which game i began, and changes no file.  On TicTacToe `play` returns for every source of random numbers, on Backgammon with probability one.",
  "every command line, configuration, file system, random source, every pair of agents, every game i",
  "Spans two runs of the program and the file system between them, for 400 random files.",
  [f"{MN}: main, handle_command", f"{VS}: play, save_game, load_game, print_game"])
c("No move with a positive prior is abandoned by the network search",
  "In a batched search with network values between -1 and 1, after N iterations every legal move of every searched position whose legal moves have priors between 0 and 1 has a child whose prior q and number K of visits satisfy q N <= 2 d (K + 1) or c q sqrt(N / d) <= 4 (K + 1), where d is the number of legal moves and c the exploration constant; in single precision with 4 + 1/32 in place of 4.  So with c > 0 every move whose prior is positive is visited as often as wanted once N is large.",
  "every game, batch of positions, order of the games, network with such values and priors, exploration constant c >= 0 (up to 4 in single precision), N with 1 + N (number of games + 1) < 2^24, random source",
  "A statement on all networks and on how visits grow, with the visits which a batch adds to wrong nodes (C41) taken into account; tests see a few networks and small N.",
  [f"{AM}: alpha_mcts_parallel, select_alpha", f"{ND}: alpha_ucb"])
c("With enough iterations the plain search avoids defeat",
  "In a position of a game of TicTacToe in which some move keeps the opponent from forcing a win, mct_search returns such a move if it is given enough iterations.  Refuted: in one position the returned move lets the opponent win at once, for every number of iterations from 25 on, because the search also expects the opponent to choose what is best for the searching player.",
  "every position of a game, every number of iterations below 2^24 (65536 in single precision), rollout limit, random source",
  "The failure has to be shown for all iteration counts and all random numbers; a test that fails with 100 iterations only suggests more iterations.",
  [f"{SM}: mct_search, select_ucb, select_leaf_node", f"{ND}: ucb, simulate"])
c("The printed percentage is the shortest number that reads back as the one computed",
  "The text printed for a float is a neat decimal number (no superfluous zeros or point, a minus sign for negative numbers only) that is rounded to the float; no decimal number with fewer digits is rounded to it, and among those with as many digits none is nearer. The text is determined by this, and different floats are printed differently.",
  "every finite f64, hence every win rate",
  "There are 2^64 floats; a test tries a few, and the interesting ones (powers of two, ties, the smallest numbers) are rarely among them.",
  [f"{VS}:141-152 Display of PlayResult", f"{VS}:149 winrate * 100."])
c("The search compares moves over all rolls",
  "If one move wins in the next turn whatever is rolled, unless the opponent has won before, and another does not, the plain search does not return the latter once it is given enough iterations.  Refuted: the dice are rolled when a node is created, so every sequence of moves is examined with one sequence of rolls, and for some rolls the worse move is returned however many iterations follow.",
  "every position of a game of Backgammon, every number of iterations below 2^24 (65536 in single precision), rollout limit, random source",
  "A test sees a few random streams; that more iterations do not help is a statement about all of them.",
  [f"{BG}:176-186 apply_move", f"{ND}: expand", f"{SM}: mct_search"])
c("Moves are drawn in proportion to their weights in floating point",
  "In double precision as the program uses it, drawing an index from a row of single precision numbers succeeds exactly if all are non-negative numbers and not all are zero; the drawn index has positive weight whatever the random generator returns; each index is drawn for a part of the 2^64 outputs that differs from its share of the sum by at most (N share + 3) / 2^52; so a code of Backgammon with a share of at least 2^-49 can be drawn.  That every index with positive weight can be drawn is refuted (weights 1 and 2^-60).",
  "every row of N < 2^52 numbers of single precision, every 64-bit output of the generator",
  "A rounding at the end of the interval would show in one of 2^52 draws; deviations of this size cannot be seen in samples.",
  [f"{AZ}:129-137 weighted_select_tensor_idx"])
c("A training step moves each weight by a bounded number of learning rates",
  "Whatever the gradients are, the t-th step of the optimizer moves an entry of a variable by at most sqrt(reach t) learning rates, at most 7.271 of them; reach t is the best bound for the t-th step and its supremum is 370/7.  The first step moves it by at most the learning rate, the second one can move it further.  Over any sequence of training steps on batches each entry stays within 7.271 learning rates for each step.",
  "every sequence of gradients, every learning rate, every network built by the program, every sequence of batches",
  "The worst gradients grow exponentially and do not occur in a sample run; the bound is about all of them.",
  [f"{AZ}:102 Adam", f"{AZ}:239-259 train"])
c("Weight decay alone never makes a weight larger",
  "Weight decay shrinks weights: an entry whose gradient is zero in all steps is never larger in absolute value than at the beginning.  Refuted for the parameters of config-example.toml: the first step makes a weight of an eighth of the learning rate larger, with the opposite sign.  Exactly the weights above lr/2 - eps/wd become smaller in the first step; all weights well above eps/wd lose nearly the whole learning rate, regardless of their size.  Over any number of steps no weight becomes larger than both its start and 73.1 learning rates, and every weight comes within 73.1 learning rates of 0 after an explicit number of steps and stays there.",
  "every learning rate and weight decay, every weight",
  "A loss curve does not show what happens to single weights without gradient.",
  [f"{AZ}:102 Adam with weight decay"])
c("Training keeps the network usable",
  "A training step on a batch of fragments whose probabilities are numbers succeeds, computes the loss of the forward pass, keeps all names and shapes of variables, moves running means and variances only in the forward pass and all other variables only in the optimizer, and keeps running variances positive.  Running means and variances move a tenth of the way to those of the batch.  So the network of the program with its optimizer meets the assumptions of C87: training runs with it return (TicTacToe: always; Backgammon: with probability one), and in each learn iteration each weight moves by at most 7.271 learning rates for each epoch and batch.",
  "every gradient, every network built by the program with positive running variances, every configuration with at least one game, iteration, round and batch entry, all tapes",
  "A step that corrupts a running variance shows only when the network is evaluated later, on some inputs.",
  [f"{AZ}:239-259 train", f"{NN}:120-148 forward_train", f"{AP}:41-98 learn_parallel"])
c("Games of a batch in the same position are searched identically",
  "In a batched search of a game without chance, all games that stand in the same position get the same tree, node for node: the one which the search of a single game makes with the same random numbers; noise and network add no difference between the games, because one row of noise is drawn for the whole batch.  Hence all games of a TicTacToe self-play batch choose their first move with the same probabilities, and record the same position with the same probabilities first.",
  "every network built by the program and every weight, every number of games and iterations, every position, every random sequence, every order of the hash sets",
  "A test sees equal rows for one seed and cannot tell whether this is so for every network and seed.",
  [f"{NO}:27-35 apply_dirichlet", f"{AM}:91-202 alpha_mcts_parallel", f"{AP}:101-231 self_play_parallel"])
c("A game in a batch gets the search it would get alone",
  "The batched search gives every game the tree that the search of this game alone would give with the same random numbers.  Refuted: if in some iteration one game selects a finished position and another one does not, the former gets no visit in that iteration.  If in every iteration all games or none select a finished position, it holds for games without chance, and with dice in the form that the tree of every game is one its search alone gives with the same noise and the dice thrown for it; in Backgammon this covers all batches of games that cannot end within as many moves as there are iterations.",
  "every game, every network which treats the rows of a batch separately (as the network of the program does), all positions, iterations, orders of hash sets and random sequences",
  "Whether iterations are lost depends on the other games of the batch; the loss is silent.",
  [f"{AM}:91-202 alpha_mcts_parallel"])
c("The noise on the root gets the configured weight",
  "At the root of a batched search the priors of the legal moves are (1 - epsilon) times the network's policy (renormalised over the legal moves) plus epsilon times the noise (renormalised likewise).  Refuted: noise is drawn over the whole action space and mixed in before the illegal codes are masked, so the weight of the noise is epsilon*Z / ((1 - epsilon)*P + epsilon*Z), where P and Z are the shares of policy and noise on the legal codes.  This formula holds for the finished tree of every search; it equals epsilon exactly if Z = P, and its mean over noise with mean 1/N per code is at most that for Z = m/N with m legal codes: with the example configuration and 40 legal moves of the 1352 codes of Backgammon and P at least 9/10, at most 1/90 in place of 1/4.  In single precision, in every order of adding up, the priors differ from this formula by at most (m+1)/(2^24-m) + 2^-19.",
  "every game whose moves have distinct codes, every network output and noise (exact numbers, or of single precision with at least 2^-100 on the legal moves), every batch, number of iterations, order of hash sets and random sequence; the mean for every distribution of the noise with mean 1/N per code",
  "The priors remain a distribution, so no assertion fails; the exploration is just weaker than configured, by a factor which depends on the position.",
  [f"{NO}:27-35 apply_dirichlet", f"{UT}:60-72 turn_policy_to_probs_tensor_parallel", f"{AM}:91-202 alpha_mcts_parallel"])
c("The network is the residual network of the textbooks",
  "With exact numbers, forward_t, forward_train and forward_policy compute the residual network written down by formulas: convolutions of 3 by 3 with a zero border, normalisation by the running statistics (in training by mean and variance of the batch), ReLU, residual blocks that add their input before the last ReLU, a policy head with softmax and a value head with tanh, both on the output of the same trunk.  The inputs for the two games are the boards, one per channel, of the positions in the order of the batch.  A block whose last normalisation has scale and shift zero returns its non-negative input.",
  "every assignment of values to the variables of a network of the program, every batch of boards of the right shape, training and evaluation mode, every eps of the normalisation",
  "A wrong layer order, border, axis or a skip connection attached at the wrong place still gives a network that trains, only worse; and a test compares with a second implementation on samples.",
  [f"{NN}:25-33 ResBlock::forward_t", f"{NN}:37-52 ResBlock::new", f"{NN}:57-107 ResNet::new", f"{NN}:120-155 forward_t, forward_train, forward_policy", f"{TT}:81-92 as_tensor", f"{BG}:198-252 as_tensor"])
c("The simulated games inform the plain search",
  "The move found by mct_search depends on the outcomes of the simulated games, so on simulate_round_limit.  Refuted: since simulate tests the winner of the position it started from, a rollout of an undecided position always reports 0 after playing its random game for nothing.  The whole tree, with all values and visits, has the same distribution for every positive limit if the random numbers are independent and identically distributed, and the same trees are possible; for TicTacToe the move is one and the same for all positive limits and all seeds.  Only the limit 0 differs (a finished position then counts as nothing when it is created).",
  "every game whose moves do not panic, every position, player, number of iterations, pair of positive limits, floating point interpretation and distribution of the random numbers",
  "The search works, and better than random, because finished positions inside the tree count; that the rollouts do nothing at all is only visible in a statement about all seeds and limits.",
  [f"{ND}:176-196 simulate", f"{SM}:10-39 mct_search"])
c("The batched network search prefers an immediate win",
  "If the player to move can win at once, the winning move has a positive prior, the network's values lie in [-1, 1) and there are enough iterations, then alpha_mcts_parallel visits no other move more often.  True up to the ratio of the priors in a batch of one game, for exact arithmetic; in every batch the winning move gets at least its share of the iterations.  Refuted in batches of two games: a game whose selected position is finished is backed up a second time along its last unfinished position, so a move that does not win is visited in every iteration and the winning one is not.",
  "every game, network with values in [-1, 1), exploration constant, batch, order of the games, number of iterations, random stream; exact real arithmetic",
  "Testing on single positions shows the winning move on top; the extra visits appear only when games are searched together, and then only if the other games still need the network.",
  [f"{AM}:91-202 alpha_mcts_parallel", f"{ND}:98-114 alpha_ucb", f"{AM}:22-34 select_alpha"])
c("The printed trees show the trees",
  "pretty_print of a well-formed search tree does not panic, and its text, read line by line (two spaces per level, the number of the node in brackets, columns between tabs), shows exactly the nodes at most the given number of steps below the starting node, each once and on its level, siblings in the order of the list of children, with their visits, values, scores and shares of wins; the parent of a node is the last node above it one level higher.  With enough levels all nodes of a search are shown.  The text of a store shows the number of its nodes.  The text of a tree of backgammon actions shows levels and values, its strokes lead exactly to the next sibling of the node or of its ancestor, and the text determines the tree.",
  "every game and well-formed store (in particular those of the plain and of the batched search), starting node, depth; every tree of actions",
  "Printing is excluded from the coverage measurement and has no tests; a wrong indentation or stroke is only seen by a person who knows the tree.",
  [f"{NS}:67-95 pretty_print", f"{BG}:21-53 Display, format_tree"])
c("A training step lowers the loss of its batch if the learning rate is small enough",
  "For a network of the program and a batch of usable fragments, whenever the gradient of the loss is not zero there is a bound such that a training step with any smaller positive learning rate lowers the loss of that batch.  The gradient exists wherever no unit is at the kink of its rectifier.",
  "every network architecture and store, batch, weight decay; steps of the optimizer",
  "That a step goes downhill is an infinitesimal statement; a test sees one learning rate and one batch, and Adam divides the gradient by its size, adds weight decay and keeps momentum.",
  [f"{AZ}:239-261 train", f"{AZ}:102-107 optimizer", f"{NN}:137-148 forward_train"])
c("A double is played in full",
  "A double is played in two half-turns of at most two checker moves.  When the mover's home board holds no opposing checker, the positions that can result from the whole turn (passing when no move is offered) are exactly the final positions of the complete plays with four equal dice by the rules of backgammon, and every one of them uses as many of the four dice as can be used at all.",
  "every valid position without opposing checkers in the mover's home board, player, double, and all choices in both half-turns",
  "The rule that as many dice as possible must be used is violated for unequal dice (C12); that splitting a double loses nothing is a confluence argument over all orders of four moves.",
  [f"{BG}:176-186 apply_move", f"{BG}:192-196 skip_turn", f"{BG}:403-414 get_valid_moves"])
c("The expected length of a match is finite",
  "If, whatever has been drawn before, each die shows every face with at least a fixed positive probability, then the probability that a Backgammon match of random and network players is still going on decreases exponentially with the number of rounds, and the expected number of rounds is finite, with an explicit bound.",
  "every pair of random and network players, configuration, iteration order and distribution of the random numbers with this property",
  "The round limit does not bound the length of a match (C57), so the statement is about an infinite probability space; no finite number of runs shows that an expectation is finite.",
  [f"{VS}: play", f"{BG}: skip_turn, roll_die"])
c("The scheduling of the parallel searches has no influence on a match",
  "However the plain searches and random choices of a round are interleaved by the thread pool, every set of results of a match has the same probability as if they were run one after the other, a panic has the same probability, and every result is one of a sequential run for some random numbers.",
  "every game, pair of players, configuration, iteration order, number of games and rounds, every schedule (which may depend on the round, the states and the numbers read), and every distribution of the random numbers",
  "The thread pool picks one of a huge number of interleavings and the outcome for fixed random numbers does depend on it; a run shows one interleaving.",
  [f"{VS}: get_actions_for_player, play"])
c("Unreadable training data is reported",
  "If a directory or an entry below the selected directory cannot be read, the train command stops with an error and does not train on a part of the data.",
  "every directory tree in which any directories and entries cannot be read and any names are not valid Unicode, every selection of run, learn and self-play index",
  "The failures are those of the file system (permissions, damaged disks), which no test provokes, and the place of the failure in the order of the directory decides what happens.",
  [f"{MN}: get_all_paths_rec, Commands::Train", f"{AZ}: load_training_data"])
c("The games of a match do not influence each other",
  "In a match between players that do not use a network, the courses of the games are independent, each game is as likely to take a course as if it were played alone, and so the numbers of wins are those of independent games.",
  "every game with dice or without, every number of games, every round limit, every iteration order of the map of games, every configuration, every distribution of the random numbers, every condition on each game",
  "All games are interleaved round by round and share one stream of random numbers, so for given numbers they do influence each other; only the joint distribution separates them, and a test sees single runs.",
  [f"{VS}: play, get_actions_for_player"])
c("The chances in a TicTacToe match of random players are exact",
  "In a TicTacToe match of two random players the player that begins a game wins it with probability 737/1260, the other player wins it with 121/420 and it is drawn with 8/63, the numbers of wins are distributed as those of 400 independent games with these probabilities, and on average each player wins 11000/63 games and 3200/63 games are drawn.",
  "both build profiles, every iteration order of the map of games, every configuration, every distribution of the random numbers under which the choice among up to nine moves is uniform",
  "The probabilities are ratios of counts over all 9! orders of the cells and concern the distribution of 400 games; a test only samples it, and would not see a chance that is off by a percent.",
  [f"{VS}: play, get_actions_for_player", f"{TT}: apply_move, get_valid_moves, check_winner"])
c("The memory of a search is bounded by its configuration",
  "A plain search with i iterations stores at most i + 1 nodes. A batched search of n games stores at most n (1 + W (i + 1)) nodes with at most W entries each, where W is 9 for TicTacToe and 1351 for Backgammon. The recursive functions that select a leaf and propagate a result need at most i + 1 (plain) or i + 2 (batched) levels, and at most 10 in TicTacToe whatever the number of iterations.",
  "every position (Backgammon: every consistent one), every number of iterations and of games, every network, every iteration order of the set of games, every random source, every floating point arithmetic",
  "Memory and stack depth grow over the iterations; a test with few iterations stays small even if nodes are stored twice or paths grow without limit.",
  [f"{SM}: mct_search, select_leaf_node, backpropagate", f"{AM}: alpha_mcts_parallel", f"{NS}: add_node", f"{ND}: expand, alpha_expand_tensor"])
c("Dice, random moves and shuffles are fair",
  "If the words of the random source are independent and uniform, the two dice show each of the 36 pairs with probability 1/36, the choice of a random move takes each of n moves with probability 1/n, the shuffle of the training data gives each of the n! orders with the same probability, and all of these end with probability 1. The chances of a TicTacToe game of two random players (C124) hold with this way of drawing.",
  "every list of fewer than 2^32 elements, every computation that draws from ranges of fewer than 2^32 numbers",
  "A bias of one part in 2^32, or one of a shuffle with a wrong range, cannot be seen in a sample; all words have to be counted.",
  [f"{BG}: roll_die", f"{ND}: simulate", f"{VS}: random player", f"{AZ}: train"])
c("Exchanging the players of a TicTacToe match exchanges the results",
  "For two players without networks (random or plain search) the wins of the first and the second player in a match have the exchanged joint distribution if the players change places. Two equal players win the match with the same probability.",
  "every configuration, every floating point arithmetic, every distribution of the random numbers, every iteration order of the maps, every set of pairs of wins",
  "The results of matches are random; a small advantage of one side (a search that sees the result for the wrong player, a starter who starts more often) disappears in the noise of a sample.",
  [f"{VS}: play, get_actions_for_player", f"{SM}: mct_search", f"{TT}: check_winner, apply_move"])
c("A TicTacToe match of two plain searches is one game played 400 times",
  "If both players use the plain search, with at least one iteration and rollouts of positive length, there is one sequence of moves that is played in all 400 games of every match with this configuration. Hence both players win 0 games or both win 200 games: the match cannot tell them apart.",
  "every configuration with iterations and rollout length positive, every floating point arithmetic, every tape of random numbers, every iteration order of the maps",
  "A test would have to compare the games of many matches with each other; the result 200:200 or 0:0 looks like a balanced match.",
  [f"{VS}: play, get_actions_for_player", f"{SM}: mct_search, simulate", f"{TT}: apply_move, check_winner"])
c("Where no game end is in its tree, the plain search plays the first legal move",
  "If no position in the tree is final, a search with N iterations returns the N-th legal move from the end of the list, and the first legal move as soon as there are as many iterations as moves, whatever the position, the player and the random numbers are. In TicTacToe this determines the first move for up to 3609 iterations and the answer for up to 400: with the configuration of the repository the search opens in cell 0 and answers this opening in cell 1, after which the opponent can force a win, though cell 4 would have held the game. In Backgammon it determines every move while neither player can win within (N - 1) / k + 1 half-turns, where k is the number of moves: with 100 iterations, the opening move for every roll.",
  "every game, every position, every player, every tape of random numbers, every number of iterations up to 2^24 (65536 in single precision), every positive exploration constant",
  "The moves look like moves of a search; that they depend only on the order in which legal moves are listed shows only when the scores of all nodes are followed through the tree.",
  [f"{SM}: mct_search, select_ucb, select_most_visits, select_leaf_node, backpropagate", f"{ND}: expand, simulate, ucb", f"{TT}: get_valid_moves, check_winner"])
c("The output of a training run tells which model is the best one",
  "If the directory of the models exists, the best model stored at the end of a training run is that of the iteration which the standard output names: the last one after whose line 'Iteration i saved successfully' there follows 'model saved!' or at least 220 wins of player 1; the file model_i.ot holds the same weights. If there is none, the best model is the one from before the run. The numbers of wins printed are those of the matches played, and the messages above the progress bars (new model better, old one better, inconclusive) are the verdicts for these numbers. If the directory does not exist, no line tells of a saved or loaded model, and every model that could not be saved is announced.",
  "every game, every network and optimizer, every configuration, every tape of random numbers, every order of hash maps and every shuffle; every run that ends",
  "A test would have to train networks until each of the three verdicts occurs and compare the files with the output.",
  [f"{AP}: learn_parallel", f"{AV}: play_vs_best_model, play_vs_model", f"{VS}: play, PlayResult::fmt", f"{NN}: from_path"])
c("The run id printed by learn selects the data of the run for train",
  "Learning prints a run id. Given to the train command after --run-id, it makes the command load the fragments of that run: for every learn iteration and every self-play iteration those collected up to it (C50), with nothing changed but the duplicated dimension.",
  "both games, every network and optimizer, every configuration with at least two games in a self-play iteration and one search iteration, every tape of random numbers, every order of hash maps, every run that ends, every run id of the alphabet of nanoid, every other content of the data directory",
  "The ids are random; one of 64 begins with a hyphen, and no test of the repository runs train.",
  [f"{AP}: learn_parallel", f"{MN}: Commands::Train, handle_command, get_all_paths_rec", f"{AZ}: load_training_data"])
c("The result of a match is close to the expected one",
  "In a match of 400 games of players without networks, the probability that the number of wins of a player differs by e or more from the expected one is at most 2 exp(-e^2/200): 40 games (ten percent) with less than 1 in 1400. The expected number is the sum of the probabilities of the games played alone, which are those of the games in the match. In TicTacToe, the first of two equal players reaches 55 percent with probability at most exp(-2), the first of two random players with at most 1/22000.",
  "every game with dice or without, every configuration, every pair of random players or players with the plain search, every iteration order of the maps, every distribution of the random numbers (for the end of Backgammon matches: in which each side of a die is possible)",
  "A frequency can only be estimated by tests; a bound on the error of the match as an estimate needs the independence of the games, which run interleaved on one source of random numbers.",
  [f"{VS}: play, get_actions_for_player", f"{AV}: play_vs_model"])
c("A replay shows every turn of the file",
  "Running the program with `replay` on any file that load_game reads as a game (whoever wrote it) returns, changes no file and prints, for every turn in order, the agent, the dice and all positions recorded as its action, besides the id, the agents and the winner; from the output all of these can be recovered, so different games give different output. If the file is missing or holds no game the program panics.",
  "every file whose text is read as a game with an id without line breaks (for Backgammon: no point of the initial position holds -128), every environment, every command line that means replay",
  "A test replays some files; that no two games look alike in the output, and that no file makes the replay fail, are statements about all files.",
  [f"{VS}: print_game, load_game", f"{MN}: main, handle_command"])
c("What one run of the program stores is what later runs find",
  "The program is run several times on the same files. A run of learn whose directory of models exists leaves in best_model.ot the network that its output names as the best one (or the one from before, if the output names none), changes nothing but the models of its game, and adds its data to that of the game; without the directory it changes no file and its output announces every model that could not be saved. A run of train stores the network trained on the data kept for the game where it was told to, from where it can be loaded. A run of play fights with the networks in the files named. A file not written by the commands of a session (games are saved under names ending in .json) is the same after it, and so is the data of every run. Hence a match of best_model.ot against model_k.ot after a run of learn whose output names iteration k as the best one is a match of a network against itself, whatever other runs there were between, if they did not write these files.",
  "every environment and file system, every list of command lines, every configuration, random numbers, hash orders, shuffles and run ids; every network format that can be read back; all runs that return",
  "Tests run one command in a fresh directory; that no sequence of commands loses or mixes up networks and data is a statement about all sequences.",
  [f"{MN}: main, handle_command, get_all_paths_rec", f"{AZ}: from_config, train", f"{AP}: learn_parallel", f"{AV}: play_vs_best_model", f"{VS}: play, save_game", f"{NN}: from_path"])
c("Weight decay keeps the weights bounded",
  "If all gradients of a weight met in training are at most wd B in absolute value, the weight is never further away from 0 than B plus 73.1 learning rates, or than at its start, however many steps are made; B cannot be replaced by a smaller number. Without weight decay there is no bound: constant gradients move a weight by the same distance in every step.",
  "every learning rate and weight decay, every number of steps, every sequence of gradients within the bound, every start",
  "Tests run a few steps; that no sequence of gradients can drive a weight beyond the bound, through the momentum of the optimizer, is a statement about all sequences.",
  [f"{AZ}: from_config, train", "config-example.toml"])
c("Visit shares and priors in single precision",
  "With every operation rounded to single precision, and whatever the order in which libtorch adds up a row: with at most 2^24 visits in total the sum of the visits is exact, the recorded share of a move has a relative error of at most 2^-24 and is zero exactly for unvisited moves, and with fewer visits in total more visits give a larger share. After a batched search of 1 to 2^23 iterations this holds for the recorded row of every searched position with a legal move. The priors of the three functions in utils.rs, for a non-negative policy with a positive legal entry, are finite, between 0 and 1, zero for illegal moves, in the order of the policy, and within a relative error of (m+1)/(2^24-m) plus 2^-150 of the exact ones, m being the number of legal moves. If all legal entries are zero, all priors are NaN. With a policy entry of at least 2^-126 for some legal move and at most half of noise, the network search in single precision therefore abandons no move with a positive prior.",
  "every row, every order of adding up, every choice of legal codes, every policy and noise of single precision numbers between 0 and 1",
  "Tests compare with a tolerance for one order of summation; that no order can give a prior above 1, a NaN or a reversed preference is a statement about all rows and all orders.",
  [f"{UT}: get_prob_tensor, get_prob_tensor_parallel, turn_policy_to_probs_tensor_parallel, turn_policy_to_probs_tensor, turn_policy_to_probs", f"{NO}: apply_dirichlet"])
c("Where the network gives no weight to the legal moves, the search tries the last move only",
  "The softmax of the policy head in single precision returns numbers between 0 and 1; an entry whose logit is at least 105 below another one is exactly zero, and one whose logit is at most 79 below the largest one is at least 2^-126. If some legal move of a position below the roots has a logit at most 79 below the largest one, the priors of all its children are numbers between 0 and 1. If all legal moves of such a position have logits at least 105 below another one, the priors of all its children are NaN, all scores compare as equal, and after any number of iterations only the last child has been visited, whatever the values of the others. A network for TicTacToe that always wants the centre is an example: every search tries only one reply to the centre.",
  "every game, every network that computes the policy by a softmax of finite logits and the priors as in the code, every order of adding up, every exponential function with the stated accuracy, every batch of states, every order of the games, every number of iterations, every random stream",
  "A test would need a network with such logits and an inspection of the tree below the roots; the program neither panics nor reports the NaN priors, and the claim is about all networks and searches.",
  [f"{NN}: forward_t, forward_policy (softmax)", f"{UT}: turn_policy_to_probs_tensor", f"{AM}: select_alpha, alpha_mcts_parallel", f"{ND}: alpha_ucb, alpha_expand_tensor"])
c("Moves are drawn with the probabilities their visits give them, in floating point",
  "With the visit shares computed in single precision, the power 1/temperature in single precision with a relative error of at most 2^-22 (for normal results), and the draw from 64 random bits in double precision: after a batched search, for a temperature of at least 1/5, the draw succeeds, every drawn code is that of a legal move whose child was visited, and the probability of each legal move differs from v^(1/temperature) / (sum over all children) by at most 2^-18 of itself plus 2^-41, v being the visits of its child.",
  "every game with at most 1352 codes (Backgammon and TicTacToe), every network, every batch of states, every order of the games and of adding up, 1 to 2^23 iterations, every random stream, every temperature of at least 1/5, every power function with the stated accuracy",
  "A difference of this size needs billions of draws to be seen, and the bound is for all searches and temperatures at once.",
  [f"{UT}: get_prob_tensor_parallel", f"{AP}: self_play_parallel (pow_)", f"{VS}: get_actions_for_player (pow_)", f"{AZ}: weighted_select_tensor_idx"])
c("Batching does not change the chances of a search",
  "If in every iteration of alpha_mcts_parallel, whatever the random numbers, either all or none of the games select a finished position, then the visit shares that a game gets from the batched search have exactly the distribution of those of its search alone, whatever the distribution of the random numbers; more precisely the batched search and the search alone can be run on random numbers such that each has its own distribution and the tree of the game in the batch is always a copy of the tree alone. This holds in particular for batches of Backgammon games none of which can end within as many moves as there are iterations, which at the beginning are up to 24.",
  "every game whose moves use finitely many random numbers, every network that treats the rows of a batch by themselves (among them the network of the program), every batch, every game of the batch, every order of the games, every number of iterations, every distribution of the random numbers, every set of shares",
  "An equality of distributions over all dice cannot be observed in runs; a bias of the batch would show only as a small drift in many searches.",
  [f"{AM}: alpha_mcts_parallel", f"{UT}: get_prob_tensor_parallel", f"{ND}: alpha_expand_tensor"])
c("A game of Backgammon takes at least 25 half-turns",
  "Whoever has won a game of Backgammon that started with new() has made at least 17 half-turns (calls of apply_move or skip_turn) in at least 9 turns; the game took at least 25 half-turns and 17 turns if the winner began and at least 26 half-turns and 18 turns otherwise. These numbers are attained by games played to their end by the rules of the program, whoever wins.",
  "every sequence of dice, of moves taken from get_valid_moves and of skipped turns, both players",
  "A lower bound over all games and dice; random games are several times as long, so tests never come near it, and a program that lets somebody move too often or too far would still finish its games.",
  [f"{BG}: apply_move", f"{BG}: skip_turn", f"{BG}: check_winner", f"{BG}: get_valid_moves"])
c("A round limit below 24 leaves Backgammon self-play without results",
  "A Backgammon game of self_play_parallel that is decided has at least 25 turns, and at least 17 of its fragments are returned as won; a run therefore returns at least 17 fragments labelled as won for each decided game. With a simulate_round_limit below 24 every fragment is labelled 0, whatever the network, the number of games and the dice are, so that training learns nothing about winning. Both numbers are those of a possible game: a sequence of legal turns from a new position that is decided by its 25th turn and has 17 fragments labelled as won. A game of a match that has a winner has at least 25 steps.",
  "every network, every configuration, every number of games, every order of the hash maps, every sequence of random numbers",
  "The limit comes from a configuration file and any number is accepted; a run with a small limit trains without any message, and a lower bound over all dice cannot be observed in runs.",
  [f"{AP}: self_play_parallel", f"{VS}: play", "src/lib.rs: simulate_round_limit", f"{BG}: apply_move"])
c("The plain search opens Backgammon with a fixed move for each roll, never the same for both sides",
  "With the iterations of the example configuration the opening move of mct_search is a function of the roll and the side alone, given by a table of 42 moves: the side -1 plays down from its points 8 and 6 with every roll, the side 1 runs with its rear checkers or plays from its middle point. The initial position is symmetric, but with no roll are the positions after the moves of the two sides mirror images of each other. In a match of two plain searches every game begins with a move of the table, and a game begun by player 1 and one begun by player 2 with the same roll are not mirror images after their first steps, though the players are equal. In a match a search with N iterations and k <= N legal moves plays the first move of the list after l steps if l + (N - 1) / k is at most 23.",
  "every roll, both sides, every tape of random numbers, every round limit; exact arithmetic and single precision; every searching run that returns",
  "A test sees plausible moves; that no random number, no rollout and no iteration has any influence on them, and that the order of the list alone makes the sides differ, holds for all runs only by an argument about the scores of all nodes.",
  [f"{SM}: mct_search, select_ucb, select_most_visits", f"{ND}: expand, simulate, ucb", f"{BG}: get_valid_moves, extract_sequences_list", f"{VS}: play"])
c("The labels of TicTacToe self-play favour the winner by one fragment for each game the beginner won",
  "In a run of self_play_parallel in TicTacToe every game gives nine fragments labelled 0 (a draw), or five to nine fragments whose labels alternate between 1 and -1 and end with 1. The winner is the player who moved last: -1 after an odd number of moves and 1 after an even number. In the data of the run the label 1 occurs as often as -1 plus the number of games won by -1, the label 0 nine times for each draw, and there are between 5 n and 9 n fragments for n games.",
  "every network output and every Dirichlet noise with an admissible alpha, every configuration with at least one iteration and a round limit of at least 9 with which the temperature keeps the probabilities, every number of games, every tape of random numbers, every order of the parallel parts",
  "The balance of the labels depends on the length and the winner of all games and on the sign convention of the label of every position; a sample of games shows neither the alternation in all games nor the exact count.",
  [f"{AP}: self_play_parallel", f"{TT}: check_winner, apply_move, get_valid_moves"])
c("The configuration fixes the number of optimizer steps of a TicTacToe training run up to a factor of two",
  "With g games in each of m self-play iterations, e epochs and batch size b, a learn iteration of learn_parallel in TicTacToe has between 5 g m and 9 g m fragments and takes e times their number divided by b, rounded up, optimizer steps. With the counts of config-example.toml these are between 320 and 576 steps in each learn iteration, and between 32000 and 57600 in the run of 100. Each weight of the network moves in a learn iteration by at most 7.271 learning rates for each of these steps.",
  "every network output, noise with an admissible alpha, every number of games, self-play iterations, epochs and batch size, round limits of at least 9, every shuffling, every order of the parallel parts, every tape of random numbers",
  "The number of steps depends on the length of all games and on the handling of the last batch of each epoch; a test counts the steps of one run.",
  [f"{AP}: learn_parallel, self_play_parallel", f"{AZ}: train"])
c("Training on the directory of a TicTacToe run takes a number of steps fixed up to a factor of two",
  "The directory of a TicTacToe run with g games in each of m self-play iterations and L learn iterations holds between 5 g L m (m + 1) / 2 and 9 g L m (m + 1) / 2 fragments, counted with repetitions (C50). With the counts of config-example.toml train --run-id takes between 20000 and 36000 optimizer steps on it and stores the result of exactly these steps, compared with 32000 to 57600 in the run itself (C144).",
  "every run of learn_parallel in TicTacToe that returns, every shuffling, with and without an output path, every network output",
  "The amount of data depends on the lengths of all games and on how often each fragment is stored and loaded.",
  [f"{MN}: train", f"{AP}: learn_parallel", f"{AZ}: train, load_training_data"])
c("The data of TicTacToe self-play holds every opening stage once per game, and no full board",
  "In the data of n games of TicTacToe self-play there are, for each k from 0 to 4, exactly n fragments whose network input shows k marks; their labels add up to the number of games won by the beginner minus the number won by the other player, with the sign of the player to move. In particular the empty board occurs n times, with a mean label equal to the balance of the games. The number of fragments with k + 1 marks is at most that with k marks, and no fragment shows nine.",
  "every number of games, network output, sampling, Rng outcome and schedule; move limit at least 9",
  "Which positions a run records depends on all searches and on the order in which the games end.",
  [f"{AP}: self_play", f"{TT}: as_tensor", f"{AN}: MemoryFragment"])
c("Every accepted saved game lies within its types and survives being saved again",
  "Whatever text load_game accepts, also one not written by save_game (structures as arrays, fields in another order, surplus fields, escapes, players as objects), every number of the game it returns lies within the type of its field, and saving this game and loading the new text gives the same game. For Backgammon, two accepted texts stand for the same game if and only if save_game writes the same text for both.",
  "every text, both games",
  "The accepted texts are not those a test would save first; there is no bound on their length or nesting.",
  [f"{VS}: load_game, save_game, Game, Turn", f"{BG}: Backgammon", f"{TT}: TicTacToe"])
out = os.path.join(os.path.dirname(os.path.abspath(__file__)), "..", "properties.jsonl")
with open(out, "w") as f:
    for p in P:
        f.write(json.dumps(p) + "\n")
print(len(P))
