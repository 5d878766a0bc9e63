# Axioms of the theorems named in MANIFEST.json

Written by `tools/gen_axioms.py` from `#print axioms`.

| property | theorem | axioms |
|---|---|---|
| C01 | `DieE.Props.C01_conservation` | propext, Classical.choice, Quot.sound |
| C01 | `DieE.Props.C01_new` | propext, Classical.choice, Quot.sound |
| C01 | `DieE.Props.C01_isValid_iff` | propext, Classical.choice, Quot.sound |
| C02 | `DieE.Props.C02_no_panic` | propext, Classical.choice, Quot.sound |
| C02 | `DieE.Props.C02_state_ok` | propext, Classical.choice, Quot.sound |
| C02 | `DieE.Props.C02_profile_independent` | propext, Classical.choice, Quot.sound |
| C02 | `DieE.Props.C02_unrolled` | propext, Classical.choice, Quot.sound |
| C03 | `DieE.Props.C03_apply_move` | propext, Classical.choice, Quot.sound |
| C03 | `DieE.Props.C03_skip_turn` | propext, Classical.choice, Quot.sound |
| C03 | `DieE.Props.C03_flag_means_double` | propext, Classical.choice, Quot.sound |
| C03 | `DieE.Props.C03_at_most_two_in_a_row` | propext, Classical.choice, Quot.sound |
| C04 | `DieE.Props.C04_bar_first` | propext, Classical.choice, Quot.sound |
| C05 | `DieE.Props.C05_open_destination` | propext, Classical.choice, Quot.sound |
| C06 | `DieE.Props.C06_one_die_per_checker` | propext, Classical.choice, Quot.sound |
| C07 | `DieE.Props.C07_bear_off_all_home` | propext, Classical.choice, Quot.sound |
| C08 | `DieE.Props.C08_refuted` | propext, Quot.sound |
| C08 | `DieE.Props.C08_in_play` | propext, Classical.choice, Quot.sound |
| C08 | `DieE.Props.C08_rearmost_partial` | propext, Classical.choice, Quot.sound |
| C09 | `DieE.Props.C09_two_checker_plays` | propext, Classical.choice, Quot.sound |
| C09 | `DieE.Props.C09_first_moves` | propext, Classical.choice, Quot.sound |
| C10 | `DieE.Props.C10_dedup` | propext, Quot.sound |
| C10 | `DieE.Props.C10_distinct_boards` | propext, Quot.sound |
| C11 | `DieE.Props.C11_maximal` | propext, Classical.choice, Quot.sound |
| C12 | `DieE.Props.C12_refuted` | propext, Quot.sound |
| C12 | `DieE.Props.C12_in_play` | propext, Classical.choice, Quot.sound |
| C12 | `DieE.Props.C12_both_dice_partial` | propext, Classical.choice, Quot.sound |
| C13 | `DieE.Props.C13_refuted` | propext, Classical.choice, Quot.sound |
| C13 | `DieE.Props.C13_in_play` | propext, Classical.choice, Quot.sound |
| C13 | `DieE.Props.C13_empty_iff_stuck_partial` | propext, Classical.choice, Quot.sound |
| C14 | `DieE.Props.C14_dice_order` | propext, Classical.choice, Quot.sound |
| C14 | `DieE.Props.C20_dice_order` | propext, Quot.sound |
| C15 | `DieE.Props.C15_refinement` | propext, Classical.choice, Quot.sound |
| C15 | `DieE.Props.C15_returned_legal` | propext, Classical.choice, Quot.sound |
| C16 | `DieE.Props.C16_effect` | propext, Classical.choice, Quot.sound |
| C16 | `DieE.Props.C16_frame` | propext, Classical.choice, Quot.sound |
| C16 | `DieE.Props.C16_composition` | propext, Quot.sound |
| C16 | `DieE.Props.C16_empty` | propext |
| C17 | `DieE.Props.C17_progress` | propext, Classical.choice, Quot.sound |
| C17 | `DieE.Props.C17_returned` | propext, Classical.choice, Quot.sound |
| C17 | `DieE.Props.C17_collected_monotone` | propext, Classical.choice, Quot.sound |
| C18 | `DieE.Props.C18_winner_iff` | propext, Classical.choice, Quot.sound |
| C18 | `DieE.Props.C18_check_win` | propext, Classical.choice, Quot.sound |
| C18 | `DieE.Props.C18_winner_moved_last` | propext, Classical.choice, Quot.sound |
| C18 | `DieE.Props.C18_persistent` | propext, Classical.choice, Quot.sound |
| C19 | `DieE.Props.C19_code_range` | propext, Classical.choice, Quot.sound |
| C19 | `DieE.Props.C19_empty` | propext |
| C20 | `DieE.Props.C20_round_trip` | propext, Classical.choice, Quot.sound |
| C20 | `DieE.Props.C20_dice_order` | propext, Quot.sound |
| C21 | `DieE.Props.C21_distinct_codes` | propext, Classical.choice, Quot.sound |
| C21 | `DieE.Props.C21_nodup` | propext, Classical.choice, Quot.sound |
| C22 | `DieE.Props.C22_encode_agree` | propext |
| C22 | `DieE.Props.C22_decode_agree` | none |
| C23 | `DieE.Props.C23_content` | propext, Classical.choice, Quot.sound |
| C23 | `DieE.Props.C23_injective` | propext, Classical.choice, Quot.sound |
| C24 | `DieE.Props.C24_no_deadlock` | propext, Classical.choice, Quot.sound |
| C25 | `DieE.Props.C25_refuted` | propext, Quot.sound |
| C25 | `DieE.Props.C25_in_play` | propext, Classical.choice, Quot.sound |
| C25 | `DieE.Props.C25_colour_symmetry_partial` | propext, Classical.choice, Quot.sound |
| C25 | `DieE.Props.C25_winner` | propext |
| C25 | `DieE.Props.Ex.C25_steps` | propext, Classical.choice, Quot.sound |
| C26 | `DieE.Props.T.C26_consistent` | propext, Classical.choice, Quot.sound |
| C26 | `DieE.Props.T.C26_cells` | propext, Classical.choice, Quot.sound |
| C26 | `DieE.Props.T.C26_one_winner` | propext, Classical.choice, Quot.sound |
| C27 | `DieE.Props.T.C27_winner` | propext, Classical.choice, Quot.sound |
| C28 | `DieE.Props.T.C28_moves_iff` | propext, Classical.choice, Quot.sound |
| C28 | `DieE.Props.T.C28_no_winner_move` | propext, Classical.choice, Quot.sound |
| C28 | `DieE.Props.T.C28_ends` | propext, Classical.choice, Quot.sound |
| C28 | `DieE.Props.T.C28_progress` | propext, Classical.choice, Quot.sound |
| C29 | `DieE.Props.T.C29_codes` | propext, Quot.sound |
| C30 | `DieE.Props.T.C30_refuted` | propext, Classical.choice, Quot.sound |
| C30 | `DieE.Props.T.C30_board_partial` | propext, Classical.choice, Quot.sound |
| C30 | `DieE.Props.T.C30_in_play` | propext, Classical.choice, Quot.sound |
| C30 | `DieE.Props.T.C30_self_play` | propext, Classical.choice, Quot.sound |
| C31 | `DieE.Props.S.C31_legal` | propext, Classical.choice, Quot.sound |
| C31 | `DieE.Props.S.C31_empty` | propext, Classical.choice, Quot.sound |
| C32 | `DieE.Props.S.C32_tictactoe` | propext, Classical.choice, Quot.sound |
| C32 | `DieE.Props.S.C32_backgammon_refuted` | propext, Classical.choice, Quot.sound |
| C32 | `DieE.Props.S.C32_backgammon_partial` | propext, Classical.choice, Quot.sound |
| C33 | `DieE.Props.S.C33_refuted` | propext, Classical.choice, Quot.sound |
| C33 | `DieE.Props.S.C33_always_zero` | propext, Classical.choice, Quot.sound |
| C33 | `DieE.Props.S.C33_partial` | propext, Classical.choice, Quot.sound |
| C34 | `DieE.Props.S.C34_visits` | propext, Classical.choice, Quot.sound |
| C34 | `DieE.Props.S.C34_root` | propext, Classical.choice, Quot.sound |
| C34 | `DieE.Props.S.C34_children` | propext, Classical.choice, Quot.sound |
| C35 | `DieE.Props.S.C35_backpropagate` | propext, Classical.choice, Quot.sound |
| C36 | `DieE.Props.S.C36_well_formed` | propext, Classical.choice, Quot.sound |
| C37 | `DieE.Props.S.C37_most_visited` | propext, Quot.sound |
| C37 | `DieE.Props.Vl.C37_win_pct` | propext, Quot.sound |
| C38 | `DieE.Props.A.C38_roots` | propext, Classical.choice, Quot.sound |
| C39 | `DieE.Props.A.C39_rows` | propext, Classical.choice, Quot.sound |
| C39 | `DieE.Props.A.C39_single` | propext, Classical.choice, Quot.sound |
| C39 | `DieE.Props.A.C39_search` | propext, Classical.choice, Quot.sound |
| C40 | `DieE.Props.A.C40_legal` | propext, Classical.choice, Quot.sound |
| C40 | `DieE.Props.A.C40_draw` | propext, Classical.choice, Quot.sound |
| C40 | `DieE.Props.A.C40_backgammon` | propext, Classical.choice, Quot.sound |
| C40 | `DieE.Props.A.C40_tictactoe` | propext, Classical.choice, Quot.sound |
| C41 | `DieE.Props.A.C41_refuted` | propext, Quot.sound |
| C41 | `DieE.Props.A.C41_iteration_partial` | propext, Classical.choice, Quot.sound |
| C41 | `DieE.Props.A.C41_atLeast_partial` | propext, Classical.choice, Quot.sound |
| C41 | `DieE.Props.A.C41_single_partial` | propext, Classical.choice, Quot.sound |
| C42 | `DieE.Props.A.C42_selection` | propext, Classical.choice, Quot.sound |
| C42 | `DieE.Props.A.C42_search` | propext, Classical.choice, Quot.sound |
| C43 | `DieE.Props.A.C43_refuted` | propext, Classical.choice, Quot.sound |
| C43 | `DieE.Props.A.C43_panics` | propext, Classical.choice, Quot.sound |
| C43 | `DieE.Props.A.C43_partial` | propext, Classical.choice, Quot.sound |
| C43 | `DieE.Props.Sg.C43_iteration_partial` | propext, Classical.choice, Quot.sound |
| C43 | `DieE.Props.Sg.C43_noise_partial` | propext, Quot.sound |
| C43 | `DieE.Props.Sg.C43_codes_partial` | propext |
| C43 | `DieE.Props.Sg.C43_codes_panic_partial` | propext, Quot.sound |
| C43 | `DieE.Props.Sg.C43_expand_partial` | propext, Classical.choice, Quot.sound |
| C44 | `DieE.Props.A.C44_priors` | propext, Classical.choice, Quot.sound |
| C44 | `DieE.Props.A.C44_codes` | propext, Quot.sound |
| C44 | `DieE.Props.A.C44_noise` | propext, Classical.choice, Quot.sound |
| C44 | `DieE.Props.A.C44_children` | propext, Classical.choice, Quot.sound |
| C45 | `DieE.Props.L.C45_refuted` | propext, Classical.choice, Quot.sound |
| C45 | `DieE.Props.L.C45_partial` | propext, Classical.choice, Quot.sound |
| C45 | `DieE.Props.L.C45_labelled` | propext, Classical.choice, Quot.sound |
| C45 | `DieE.Props.L.C46_tictactoe` | propext, Classical.choice, Quot.sound |
| C46 | `DieE.Props.L.C46_refuted` | propext, Classical.choice, Quot.sound |
| C46 | `DieE.Props.L.C46_partial` | propext, Classical.choice, Quot.sound |
| C46 | `DieE.Props.L.C46_limit` | propext, Classical.choice, Quot.sound |
| C46 | `DieE.Props.L.C46_tictactoe` | propext, Classical.choice, Quot.sound |
| C47 | `DieE.Props.L.C47_refuted` | propext, Quot.sound |
| C47 | `DieE.Props.L.C47_labels` | propext, Classical.choice, Quot.sound |
| C47 | `DieE.Props.L.C47_partial` | propext, Classical.choice, Quot.sound |
| C47 | `DieE.Props.L.C47_tictactoe_panics` | propext, Classical.choice, Quot.sound |
| C47 | `DieE.Props.L.C47_backgammon_panics` | propext, Classical.choice, Quot.sound |
| C48 | `DieE.Props.D.C48_batches` | propext, Classical.choice, Quot.sound |
| C48 | `DieE.Props.D.C48_zero` | propext |
| C49 | `DieE.Props.D.C49_refuted` | propext, Quot.sound |
| C49 | `DieE.Props.D.C49_single` | propext, Quot.sound |
| C49 | `DieE.Props.D.C49_empty` | propext |
| C49 | `DieE.Props.D.C49_partial` | propext, Classical.choice, Quot.sound |
| C49 | `DieE.Props.D.C49_tictactoe` | propext, Classical.choice, Quot.sound |
| C49 | `DieE.Props.D.C49_backgammon` | propext, Classical.choice, Quot.sound |
| C50 | `DieE.Props.D.C50_refuted` | propext, Classical.choice, Quot.sound |
| C50 | `DieE.Props.D.C50_prefixes` | propext, Classical.choice, Quot.sound |
| C50 | `DieE.Props.D.C50_multiplicity` | propext, Classical.choice, Quot.sound |
| C50 | `DieE.Props.D.C50_complete` | propext, Classical.choice, Quot.sound |
| C50 | `DieE.Props.D.C50_partial` | propext, Classical.choice, Quot.sound |
| C51 | `DieE.Props.D.C51_refuted` | propext, Classical.choice, Quot.sound |
| C51 | `DieE.Props.D.C51_nothing` | propext, Quot.sound |
| C52 | `DieE.Props.V.C52_gate` | propext, Classical.choice, Quot.sound |
| C52 | `DieE.Props.V.C52_verdict` | propext, Classical.choice, Quot.sound |
| C52 | `DieE.Props.V.C52_create` | propext, Classical.choice, Quot.sound |
| C52 | `DieE.Props.V.C52_tictactoe` | propext, Classical.choice, Quot.sound |
| C53 | `DieE.Props.V.C53_tictactoe` | propext, Classical.choice, Quot.sound |
| C53 | `DieE.Props.V.C53_backgammon` | propext, Classical.choice, Quot.sound |
| C53 | `DieE.Props.V.C53_winners` | propext, Quot.sound |
| C53 | `DieE.Props.V.C53_winners_same` | propext, Classical.choice, Quot.sound |
| C54 | `DieE.Props.V.C54_tictactoe` | propext, Classical.choice, Quot.sound |
| C54 | `DieE.Props.V.C54_backgammon` | propext, Classical.choice, Quot.sound |
| C54 | `DieE.Props.V.C54_records_tictactoe` | propext, Classical.choice, Quot.sound |
| C54 | `DieE.Props.V.C54_records_backgammon` | propext, Classical.choice, Quot.sound |
| C55 | `DieE.Props.V.C55_moves` | propext, Classical.choice, Quot.sound |
| C55 | `DieE.Props.V.C55_tictactoe` | propext, Classical.choice, Quot.sound |
| C55 | `DieE.Props.V.C55_backgammon` | propext, Classical.choice, Quot.sound |
| C56 | `DieE.Props.V.C56_refuted` | propext, Classical.choice, Quot.sound |
| C56 | `DieE.Props.V.C56_empty` | propext, Classical.choice, Quot.sound |
| C56 | `DieE.Props.V.C56_partial` | propext, Classical.choice, Quot.sound |
| C57 | `DieE.Props.V.C57_refuted` | propext, Classical.choice, Quot.sound |
| C57 | `DieE.Props.V.C57_endless` | propext, Classical.choice, Quot.sound |
| C57 | `DieE.Props.V.C57_partial` | propext, Classical.choice, Quot.sound |
| C57 | `DieE.Props.V.C57_rounds` | propext, Classical.choice, Quot.sound |
| C57 | `DieE.Props.V.C57_unstuck` | propext, Classical.choice, Quot.sound |
| C58 | `DieE.Props.V.C58_random` | propext, Classical.choice, Quot.sound |
| C58 | `DieE.Props.V.C58_players` | propext, Classical.choice, Quot.sound |
| C67 | `DieE.Props.V.C67_backgammon` | propext, Classical.choice, Quot.sound |
| C67 | `DieE.Props.V.C67_going` | propext, Classical.choice, Quot.sound |
| C67 | `DieE.Props.V.C67_tictactoe` | propext, Classical.choice, Quot.sound |
| C65 | `DieE.Props.D.C65_batch` | propext, Quot.sound |
| C65 | `DieE.Props.D.C65_train` | propext, Classical.choice, Quot.sound |
| C66 | `DieE.Props.D.C66_refuted` | propext, Classical.choice, Quot.sound |
| C66 | `DieE.Props.D.C66_panics` | propext, Quot.sound |
| C66 | `DieE.Props.D.C66_partial` | propext, Classical.choice, Quot.sound |
| C63 | `DieE.Props.A.C63_tictactoe` | propext, Classical.choice, Quot.sound |
| C63 | `DieE.Props.A.C63_backgammon` | propext, Classical.choice, Quot.sound |
| C63 | `DieE.Props.A.C63_empty` | propext |
| C64 | `DieE.Props.L.C64_tictactoe` | propext, Classical.choice, Quot.sound |
| C64 | `DieE.Props.L.C64_backgammon` | propext, Classical.choice, Quot.sound |
| C64 | `DieE.Props.L.C64_games` | propext, Classical.choice, Quot.sound |
| C59 | `DieE.Props.N.C59_tictactoe` | propext, Classical.choice, Quot.sound |
| C59 | `DieE.Props.N.C59_backgammon` | propext, Classical.choice, Quot.sound |
| C59 | `DieE.Props.N.C59_single` | propext, Classical.choice, Quot.sound |
| C59 | `DieE.Props.N.C59_search` | propext, Quot.sound |
| C60 | `DieE.Props.Cfg.C60_refuted` | propext |
| C60 | `DieE.Props.Cfg.C60_accepted` | propext, Quot.sound |
| C60 | `DieE.Props.Cfg.C60_accepted_training` | propext, Quot.sound |
| C60 | `DieE.Props.Cfg.C60_partial` | propext, Quot.sound |
| C61 | `DieE.Props.N.C61_refuted` | propext, Classical.choice, Quot.sound |
| C61 | `DieE.Props.N.C61_ignored` | propext |
| C62 | `DieE.Props.N.C62_restored` | propext, Classical.choice, Quot.sound |
| C62 | `DieE.Props.N.C62_results` | propext, Classical.choice, Quot.sound |
| C62 | `DieE.Props.N.C62_missing` | propext, Quot.sound |
| C68 | `DieE.Props.N.C68_rows` | propext, Classical.choice, Quot.sound |
| C68 | `DieE.Props.N.C68_tictactoe` | propext, Classical.choice, Quot.sound |
| C68 | `DieE.Props.N.C68_backgammon` | propext, Classical.choice, Quot.sound |
| C69 | `DieE.Props.N.C69_outputs` | propext, Classical.choice, Quot.sound |
| C69 | `DieE.Props.N.C69_tictactoe` | propext, Classical.choice, Quot.sound |
| C69 | `DieE.Props.N.C69_backgammon` | propext, Classical.choice, Quot.sound |
| C70 | `DieE.Props.C70_refuted` | propext |
| C70 | `DieE.Props.C70_release` | propext, Classical.choice, Quot.sound |
| C70 | `DieE.Props.C70_partial` | propext, Classical.choice, Quot.sound |
| C71 | `DieE.Props.SG.C71_tictactoe` | propext, Classical.choice, Quot.sound |
| C71 | `DieE.Props.SG.C71_backgammon` | propext, Classical.choice, Quot.sound |
| C71 | `DieE.Props.SG.C71_injective` | propext, Classical.choice, Quot.sound |
| C72 | `DieE.Props.SG.C72_any` | propext, Classical.choice, Quot.sound |
| C72 | `DieE.Props.SG.C72_tictactoe` | propext, Classical.choice, Quot.sound |
| C72 | `DieE.Props.SG.C72_backgammon` | propext, Classical.choice, Quot.sound |
| C72 | `DieE.Props.SG.C72_content` | propext, Classical.choice, Quot.sound |
| C72 | `DieE.Props.SG.C72_runs` | propext, Classical.choice, Quot.sound |
| C73 | `DieE.Props.SG.C73_refuted` | propext, Classical.choice, Quot.sound |
| C73 | `DieE.Props.SG.C73_constant` | propext, Quot.sound |
| C73 | `DieE.Props.SG.C73_only_initial` | propext, Classical.choice, Quot.sound |
| C73 | `DieE.Props.SG.C73_partial` | propext, Quot.sound |
| C74 | `DieE.Props.SG.C74_truncated` | propext, Classical.choice, Quot.sound |
| C74 | `DieE.Props.SG.C74_all` | propext, Classical.choice, Quot.sound |
| C75 | `DieE.Props.SG.C75_agents` | propext, Classical.choice, Quot.sound |
| C75 | `DieE.Props.SG.C75_missing` | propext |
| C76 | `DieE.Props.SG.C76_refuted` | propext, Classical.choice, Quot.sound |
| C76 | `DieE.Props.SG.C76_panics_tictactoe` | propext, Classical.choice, Quot.sound |
| C76 | `DieE.Props.SG.C76_panics_backgammon` | propext, Classical.choice, Quot.sound |
| C76 | `DieE.Props.SG.C76_partial` | propext, Classical.choice, Quot.sound |
| C76 | `DieE.Props.Re.C76_files` | propext, Classical.choice, Quot.sound |
| C77 | `DieE.Props.Vl.C77_plain` | propext, Classical.choice, Quot.sound |
| C77 | `DieE.Props.Vl.C77_batched` | propext, Classical.choice, Quot.sound |
| C78 | `DieE.Props.Vl.C78_refuted` | propext, Classical.choice, Quot.sound |
| C78 | `DieE.Props.Vl.C78_values_partial` | propext, Classical.choice, Quot.sound |
| C79 | `DieE.Props.Vl.C79_refuted` | propext, Classical.choice, Quot.sound |
| C79 | `DieE.Props.Vl.C79_plain_partial` | propext, Classical.choice, Quot.sound |
| C79 | `DieE.Props.Vl.C79_batched_partial` | propext, Classical.choice, Quot.sound |
| C80 | `DieE.Props.Wn.C80_refuted` | propext, Classical.choice, Quot.sound |
| C80 | `DieE.Props.Wn.C80_visits_partial` | propext, Classical.choice, Quot.sound |
| C80 | `DieE.Props.Wn.C80_partial` | propext, Classical.choice, Quot.sound |
| C80 | `DieE.Props.Wn.real_sober` | propext, Classical.choice, Quot.sound |
| C80 | `DieE.Props.Wn.C80_example_config` | propext, Classical.choice, Quot.sound |
| C81 | `DieE.Props.Uf.C81_refuted` | propext, Classical.choice, Quot.sound |
| C81 | `DieE.Props.Uf.C81_partial` | propext, Classical.choice, Quot.sound |
| C81 | `DieE.Props.Uf.C81_backgammon_partial` | propext, Classical.choice, Quot.sound |
| C81 | `DieE.Props.Uf.C81_match_partial` | propext, Classical.choice, Quot.sound |
| C81 | `DieE.Props.Uf.bg_warm` | propext, Classical.choice, Quot.sound |
| C81 | `DieE.Props.Uf.ttt_warm` | propext, Classical.choice, Quot.sound |
| C82 | `DieE.Props.Ls.C82_loss` | propext, Classical.choice, Quot.sound |
| C82 | `DieE.Props.Ls.C82_any` | propext, Classical.choice, Quot.sound |
| C82 | `DieE.Props.Ls.C82_selfplay` | propext, Classical.choice, Quot.sound |
| C82 | `DieE.Props.Ls.C82_tictactoe` | propext, Classical.choice, Quot.sound |
| C82 | `DieE.Props.Ls.C82_backgammon` | propext, Classical.choice, Quot.sound |
| C83 | `DieE.Props.Ls.C83_refuted` | propext, Classical.choice, Quot.sound |
| C83 | `DieE.Props.Ls.C83_partial` | propext, Classical.choice, Quot.sound |
| C83 | `DieE.Props.Ls.C83_unit_partial` | propext, Classical.choice, Quot.sound |
| C84 | `DieE.Props.Lr.C84_iterations` | propext, Classical.choice, Quot.sound |
| C84 | `DieE.Props.Lr.C84_saved` | propext, Classical.choice, Quot.sound |
| C84 | `DieE.Props.Lr.C84_single` | propext, Classical.choice, Quot.sound |
| C85 | `DieE.Props.Lr.C85_refuted` | propext, Classical.choice, Quot.sound |
| C85 | `DieE.Props.Lr.C85_lost` | propext, Classical.choice, Quot.sound |
| C85 | `DieE.Props.Lr.C85_partial` | propext, Classical.choice, Quot.sound |
| C86 | `DieE.Props.Lr.C86_single_refuted` | propext, Quot.sound |
| C86 | `DieE.Props.Lr.C86_command_refuted` | propext, Quot.sound |
| C86 | `DieE.Props.Lr.C86_parallel_partial` | propext, Classical.choice, Quot.sound |
| C87 | `DieE.Props.Lr.C87_refuted` | propext, Classical.choice, Quot.sound |
| C87 | `DieE.Props.Lr.C87_tictactoe_partial` | propext, Classical.choice, Quot.sound |
| C87 | `DieE.Props.Lr.C87_backgammon_partial` | propext, Classical.choice, Quot.sound |
| C87 | `DieE.Props.Lr.C87_backgammon_rich` | propext, Classical.choice, Quot.sound |
| C87 | `DieE.Props.Lr.C87_backgammon_sure` | propext, Classical.choice, Quot.sound |
| C87 | `DieE.Props.Lr.C87_no_games` | propext, Classical.choice, Quot.sound |
| C88 | `DieE.Props.Lr.C88_trained` | propext, Classical.choice, Quot.sound |
| C88 | `DieE.Props.Lr.C88_untrained` | propext, Quot.sound |
| C89 | `DieE.Props.Pr.C89_shows` | propext, Classical.choice, Quot.sound |
| C89 | `DieE.Props.Pr.C89_backgammon` | propext, Classical.choice, Quot.sound |
| C89 | `DieE.Props.Pr.C89_injective` | propext, Classical.choice, Quot.sound |
| C90 | `DieE.Props.Pr.C90_shows` | propext, Classical.choice, Quot.sound |
| C90 | `DieE.Props.Pr.C90_injective` | propext, Classical.choice, Quot.sound |
| C91 | `DieE.Props.Nm.C91_refuted` | propext, Classical.choice, Quot.sound |
| C91 | `DieE.Props.Nm.C91_panics` | propext, Classical.choice, Quot.sound |
| C91 | `DieE.Props.Nm.C91_stuck_partial` | propext, Classical.choice, Quot.sound |
| C91 | `DieE.Props.Nm.C91_search_partial` | propext, Classical.choice, Quot.sound |
| C91 | `DieE.Props.Nm.C91_learn` | propext, Classical.choice, Quot.sound |
| C92 | `DieE.Props.Cl.C92` | propext, Classical.choice, Quot.sound |
| C92 | `DieE.Props.Cl.C92_unique` | propext, Classical.choice, Quot.sound |
| C93 | `DieE.Props.Cl.C93_refuted` | propext, Classical.choice, Quot.sound |
| C93 | `DieE.Props.Cl.C93_partial` | propext, Classical.choice, Quot.sound |
| C93 | `DieE.Props.Cl.C93_game` | propext, Classical.choice, Quot.sound |
| C94 | `DieE.Props.Cl.C94_refuted` | propext, Quot.sound |
| C94 | `DieE.Props.Cl.C94_partial` | propext, Quot.sound |
| C94 | `DieE.Props.Cl.C94_default` | propext, Quot.sound |
| C94 | `DieE.Props.Cl.C94_bounds` | propext, Classical.choice, Quot.sound |
| C95 | `DieE.Props.Sr.C95` | propext, Classical.choice, Quot.sound |
| C95 | `DieE.Props.Sr.C95_moves` | propext, Classical.choice, Quot.sound |
| C96 | `DieE.Props.Sr.C96_rich` | propext, Classical.choice, Quot.sound |
| C96 | `DieE.Props.Sr.C96` | propext, Classical.choice, Quot.sound |
| C96 | `DieE.Props.Sr.C96_limit` | propext, Classical.choice, Quot.sound |
| C96 | `DieE.Props.Sr.C96_fair` | propext, Classical.choice, Quot.sound |
| C97 | `DieE.Props.Ex.C97_refinement` | propext, Classical.choice, Quot.sound |
| C97 | `DieE.Props.Ex.C97_returned` | propext, Classical.choice, Quot.sound |
| C97 | `DieE.Props.Ex.C97_stuck` | propext, Classical.choice, Quot.sound |
| C97 | `DieE.Props.Ex.C97_difference` | propext, Classical.choice, Quot.sound |
| C98 | `DieE.Props.Dr.C98_agree` | propext, Classical.choice, Quot.sound |
| C98 | `DieE.Props.Dr.C98_weights` | propext, Classical.choice, Quot.sound |
| C98 | `DieE.Props.Dr.C98_search` | propext, Classical.choice, Quot.sound |
| C98 | `DieE.Props.Dr.C98_order` | propext, Classical.choice, Quot.sound |
| C98 | `DieE.Props.Dr.C98_cold` | propext, Classical.choice, Quot.sound |
| C98 | `DieE.Props.Dr.C98_hot` | propext, Classical.choice, Quot.sound |
| C99 | `DieE.Props.Xp.C99` | propext, Classical.choice, Quot.sound |
| C100 | `DieE.Props.Fn.C100_nearest` | propext, Classical.choice, Quot.sound |
| C100 | `DieE.Props.Fn.C100_gate` | propext, Classical.choice, Quot.sound |
| C100 | `DieE.Props.Fn.C100_gate_exact` | propext, Classical.choice, Quot.sound |
| C100 | `DieE.Props.Fn.C100_count` | propext, Classical.choice, Quot.sound |
| C100 | `DieE.Props.Fn.C100_values` | propext, Classical.choice, Quot.sound |
| C100 | `DieE.Props.Fn.C100_win` | propext, Classical.choice, Quot.sound |
| C100 | `DieE.Props.Fn.C100_explore` | propext, Classical.choice, Quot.sound |
| C100 | `DieE.Props.Fn.C100_compare` | propext, Classical.choice, Quot.sound |
| C100 | `DieE.Props.Fn.C100_overflow` | propext, Classical.choice, Quot.sound |
| C100 | `DieE.Props.Fn.C100_add` | propext, Classical.choice, Quot.sound |
| C100 | `DieE.Props.Fn.C100_mul` | propext, Classical.choice, Quot.sound |
| C100 | `DieE.Props.Fn.C100_div` | propext, Classical.choice, Quot.sound |
| C100 | `DieE.Props.Fn.C100_sqrt` | propext, Classical.choice, Quot.sound |
| C100 | `DieE.Props.Fn.C100_win_pct` | propext, Classical.choice, Quot.sound |
| C101 | `DieE.Props.Rp.C101_refuted` | propext, Classical.choice, Quot.sound |
| C101 | `DieE.Props.Rp.C101_text` | propext, Classical.choice, Quot.sound |
| C101 | `DieE.Props.Rp.C101_partial` | propext, Classical.choice, Quot.sound |
| C101 | `DieE.Props.Rp.C101_backgammon_partial` | propext, Classical.choice, Quot.sound |
| C102 | `DieE.Props.Ap.C102_tictactoe` | propext, Classical.choice, Quot.sound |
| C102 | `DieE.Props.Ap.C102_backgammon` | propext, Classical.choice, Quot.sound |
| C102 | `DieE.Props.Ap.C102_returns` | propext, Classical.choice, Quot.sound |
| C102 | `DieE.Props.Ap.C102_sure` | propext, Classical.choice, Quot.sound |
| C102 | `DieE.Props.Ap.C102_runs` | propext, Classical.choice, Quot.sound |
| C102 | `DieE.Props.Ap.C102_forged` | propext, Classical.choice, Quot.sound |
| C103 | `DieE.Props.Pu.C103` | propext, Classical.choice, Quot.sound |
| C103 | `DieE.Props.Pu.C103_unbounded` | propext, Classical.choice, Quot.sound |
| C103 | `DieE.Props.Pu.C103_single` | propext, Classical.choice, Quot.sound |
| C104 | `DieE.Props.Bl.C104_blunder` | propext, Classical.choice, Quot.sound |
| C104 | `DieE.Props.Bl.C104_blunder_single` | propext, Classical.choice, Quot.sound |
| C104 | `DieE.Props.Bl.C104_refuted` | propext, Classical.choice, Quot.sound |
| C105 | `DieE.Props.Sh.C105_display` | propext, Classical.choice, Quot.sound |
| C105 | `DieE.Props.Sh.C105_unique` | propext, Classical.choice, Quot.sound |
| C105 | `DieE.Props.Sh.C105_injective` | propext, Classical.choice, Quot.sound |
| C105 | `DieE.Props.Sh.C105_percentage` | propext, Classical.choice, Quot.sound |
| C106 | `DieE.Props.Fz.C106_one_roll` | propext, Classical.choice, Quot.sound |
| C106 | `DieE.Props.Fz.C106_one_roll_batched` | propext, Classical.choice, Quot.sound |
| C106 | `DieE.Props.Fz.C106_frozen` | propext, Classical.choice, Quot.sound |
| C106 | `DieE.Props.Fz.C106_frozen_single` | propext, Classical.choice, Quot.sound |
| C106 | `DieE.Props.Fz.C106_refuted` | propext, Classical.choice, Quot.sound |
| C107 | `DieE.Props.Dw.C107_new` | propext, Classical.choice, Quot.sound |
| C107 | `DieE.Props.Dw.C107_positive` | propext, Classical.choice, Quot.sound |
| C107 | `DieE.Props.Dw.C107_total` | propext, Classical.choice, Quot.sound |
| C107 | `DieE.Props.Dw.C107_model` | propext, Classical.choice, Quot.sound |
| C107 | `DieE.Props.Dw.C107_share` | propext, Classical.choice, Quot.sound |
| C107 | `DieE.Props.Dw.C107_row` | propext, Classical.choice, Quot.sound |
| C107 | `DieE.Props.Dw.C107_drawn` | propext, Classical.choice, Quot.sound |
| C107 | `DieE.Props.Dw.C107_refuted` | propext, Classical.choice, Quot.sound |
| C108 | `DieE.Props.Ad.C108_moments` | propext, Classical.choice, Quot.sound |
| C108 | `DieE.Props.Ad.C108_step` | propext, Classical.choice, Quot.sound |
| C108 | `DieE.Props.Ad.C108_bound` | propext, Classical.choice, Quot.sound |
| C108 | `DieE.Props.Ad.C108_first` | propext, Classical.choice, Quot.sound |
| C108 | `DieE.Props.Ad.C108_sharp` | propext, Classical.choice, Quot.sound |
| C108 | `DieE.Props.Ad.C108_limit` | propext, Classical.choice, Quot.sound |
| C108 | `DieE.Props.Ad.C108_second` | propext, Classical.choice, Quot.sound |
| C108 | `DieE.Props.Ad.C108_drift` | propext, Classical.choice, Quot.sound |
| C109 | `DieE.Props.Ad.C109_refuted` | propext, Classical.choice, Quot.sound |
| C109 | `DieE.Props.Ad.C109_first_partial` | propext, Classical.choice, Quot.sound |
| C109 | `DieE.Props.Ad.C109_uniform` | propext, Classical.choice, Quot.sound |
| C109 | `DieE.Props.Ad.C109_follow` | propext, Classical.choice, Quot.sound |
| C109 | `DieE.Props.Ad.C109_partial` | propext, Classical.choice, Quot.sound |
| C109 | `DieE.Props.Ad.C109_large` | propext, Classical.choice, Quot.sound |
| C109 | `DieE.Props.Ad.C109_eventually` | propext, Classical.choice, Quot.sound |
| C110 | `DieE.Props.Ad.C110_forward` | propext, Classical.choice, Quot.sound |
| C110 | `DieE.Props.Ad.C110_step` | propext, Classical.choice, Quot.sound |
| C110 | `DieE.Props.Ad.C110_sound` | propext, Classical.choice, Quot.sound |
| C110 | `DieE.Props.Ad.C110_iterations` | propext, Classical.choice, Quot.sound |
| C110 | `DieE.Props.Ad.C110_tictactoe` | propext, Classical.choice, Quot.sound |
| C110 | `DieE.Props.Ad.C110_backgammon` | propext, Classical.choice, Quot.sound |
| C110 | `DieE.Props.Ad.C110_tenth` | propext, Classical.choice, Quot.sound |
| C110 | `DieE.Props.Ad.C110_statistics` | propext, Classical.choice, Quot.sound |
| C111 | `DieE.Props.Bt.C111_same` | propext, Classical.choice, Quot.sound |
| C111 | `DieE.Props.Bt.C111_rows` | propext, Classical.choice, Quot.sound |
| C111 | `DieE.Props.Bt.C111_selfplay` | propext, Classical.choice, Quot.sound |
| C111 | `DieE.Props.Bt.C111_tictactoe` | propext, Classical.choice, Quot.sound |
| C111 | `DieE.Props.Bt.C111_opening` | propext, Classical.choice, Quot.sound |
| C112 | `DieE.Props.Bt.C112_refuted` | propext, Classical.choice, Quot.sound |
| C112 | `DieE.Props.Bt.C112_alone_partial` | propext, Classical.choice, Quot.sound |
| C112 | `DieE.Props.Bt.C112_shares_partial` | propext, Classical.choice, Quot.sound |
| C112 | `DieE.Props.Bt.C112_dice_partial` | propext, Classical.choice, Quot.sound |
| C112 | `DieE.Props.Bt.C112_dice_shares_partial` | propext, Classical.choice, Quot.sound |
| C112 | `DieE.Props.Bt.C112_backgammon_partial` | propext, Classical.choice, Quot.sound |
| C113 | `DieE.Props.No.C113_refuted` | propext, Classical.choice, Quot.sound |
| C113 | `DieE.Props.No.C113_share` | propext, Classical.choice, Quot.sound |
| C113 | `DieE.Props.No.C113_prior` | propext, Classical.choice, Quot.sound |
| C113 | `DieE.Props.No.C113_search_partial` | propext, Classical.choice, Quot.sound |
| C113 | `DieE.Props.No.C113_prior_single` | propext, Classical.choice, Quot.sound |
| C113 | `DieE.Props.No.C113_single_partial` | propext, Classical.choice, Quot.sound |
| C113 | `DieE.Props.No.C113_average` | propext, Classical.choice, Quot.sound |
| C113 | `DieE.Props.No.C113_bounds` | propext, Classical.choice, Quot.sound |
| C113 | `DieE.Props.No.C113_backgammon` | propext, Classical.choice, Quot.sound |
| C114 | `DieE.Props.Tb.C114_network` | propext, Classical.choice, Quot.sound |
| C114 | `DieE.Props.Tb.C114_tictactoe` | propext, Classical.choice, Quot.sound |
| C114 | `DieE.Props.Tb.C114_backgammon` | propext, Classical.choice, Quot.sound |
| C114 | `DieE.Props.Tb.C114_skip` | propext, Classical.choice, Quot.sound |
| C115 | `DieE.Props.Ro.C115_refuted` | propext, Classical.choice, Quot.sound |
| C115 | `DieE.Props.Ro.C115_trees` | propext, Classical.choice, Quot.sound |
| C115 | `DieE.Props.Ro.C115_backgammon` | propext, Classical.choice, Quot.sound |
| C115 | `DieE.Props.Ro.C115_tictactoe` | propext, Classical.choice, Quot.sound |
| C116 | `DieE.Props.Gr.C116_partial` | propext, Classical.choice, Quot.sound |
| C116 | `DieE.Props.Gr.C116_refuted` | propext, Classical.choice, Quot.sound |
| C116 | `DieE.Props.Gr.C116_even` | propext, Classical.choice, Quot.sound |
| C116 | `DieE.Props.Gr.C116_ttt` | propext, Classical.choice, Quot.sound |
| C117 | `DieE.Props.Pn.C117_tree` | propext, Classical.choice, Quot.sound |
| C117 | `DieE.Props.Pn.C117_search` | propext, Classical.choice, Quot.sound |
| C117 | `DieE.Props.Pn.C117_batch` | propext, Classical.choice, Quot.sound |
| C117 | `DieE.Props.Pn.C117_store` | propext, Classical.choice, Quot.sound |
| C117 | `DieE.Props.Pn.C117_actions` | propext, Classical.choice, Quot.sound |
| C117 | `DieE.Props.Pn.C117_actions_injective` | propext, Classical.choice, Quot.sound |
| C118 | `DieE.Props.Ds.C118_gradient` | propext, Classical.choice, Quot.sound |
| C118 | `DieE.Props.Ds.C118_optimizer` | propext, Classical.choice, Quot.sound |
| C118 | `DieE.Props.Ds.C118_first` | propext, Classical.choice, Quot.sound |
| C118 | `DieE.Props.Ds.C118_partial` | propext, Classical.choice, Quot.sound |
| C118 | `DieE.Props.Ds.C118_refuted_decay` | propext, Classical.choice, Quot.sound |
| C118 | `DieE.Props.Ds.C118_refuted` | propext, Classical.choice, Quot.sound |
| C119 | `DieE.Props.Db.C119_doubles` | propext, Classical.choice, Quot.sound |
| C119 | `DieE.Props.Db.C119_home_needed` | propext, Classical.choice, Quot.sound |
| C120 | `DieE.Props.Tl.C120_rounds` | propext, Classical.choice, Quot.sound |
| C120 | `DieE.Props.Tl.C120_tail` | propext, Classical.choice, Quot.sound |
| C120 | `DieE.Props.Tl.C120_expected` | propext, Classical.choice, Quot.sound |
| C120 | `DieE.Props.Tl.C120_fair` | propext, Classical.choice, Quot.sound |
| C120 | `DieE.Props.Tl.C120_unbounded` | propext, Classical.choice, Quot.sound |
| C121 | `DieE.Props.Pl.C121_law` | propext, Classical.choice, Quot.sound |
| C121 | `DieE.Props.Pl.C121_possible` | propext, Classical.choice, Quot.sound |
| C121 | `DieE.Props.Pl.C121_panics` | propext, Classical.choice, Quot.sound |
| C121 | `DieE.Props.Pl.C121_safe` | propext, Classical.choice, Quot.sound |
| C122 | `DieE.Props.Dk.C122_refuted` | propext, Quot.sound |
| C122 | `DieE.Props.Dk.C122_silent` | propext, Quot.sound |
| C122 | `DieE.Props.Dk.C122_untrained` | propext, Quot.sound |
| C122 | `DieE.Props.Dk.C122_odd` | propext, Quot.sound |
| C122 | `DieE.Props.Dk.C122_files` | propext, Quot.sound |
| C122 | `DieE.Props.Dk.C122_partial` | propext, Quot.sound |
| C123 | `DieE.Props.In.C123_independent` | propext, Classical.choice, Quot.sound |
| C123 | `DieE.Props.In.C123_single` | propext, Classical.choice, Quot.sound |
| C123 | `DieE.Props.In.C123_wins` | propext, Classical.choice, Quot.sound |
| C123 | `DieE.Props.In.C123_tictactoe` | propext, Classical.choice, Quot.sound |
| C124 | `DieE.Props.Ch.C124_game` | propext, Classical.choice, Quot.sound |
| C124 | `DieE.Props.Ch.C124_wins` | propext, Classical.choice, Quot.sound |
| C124 | `DieE.Props.Ch.C124_average` | propext, Classical.choice, Quot.sound |
| C125 | `DieE.Props.Mm.C125_plain` | propext, Classical.choice, Quot.sound |
| C125 | `DieE.Props.Mm.C125_batched` | propext, Classical.choice, Quot.sound |
| C125 | `DieE.Props.Mm.C125_tictactoe_plain` | propext, Classical.choice, Quot.sound |
| C125 | `DieE.Props.Mm.C125_tictactoe` | propext, Classical.choice, Quot.sound |
| C125 | `DieE.Props.Mm.C125_backgammon` | propext, Classical.choice, Quot.sound |
| C126 | `DieE.Props.Fr.C126_dice` | propext, Classical.choice, Quot.sound |
| C126 | `DieE.Props.Fr.C126_choose` | propext, Classical.choice, Quot.sound |
| C126 | `DieE.Props.Fr.C126_shuffle` | propext, Classical.choice, Quot.sound |
| C126 | `DieE.Props.Fr.C126_positions` | propext |
| C126 | `DieE.Props.Fr.C126_ends` | propext, Classical.choice, Quot.sound |
| C126 | `DieE.Props.Fr.C126_roll` | none |
| C126 | `DieE.Props.Fr.C126_pick` | propext |
| C126 | `DieE.Props.Fr.C126_model` | propext, Classical.choice, Quot.sound |
| C126 | `DieE.Props.Fr.C126_game` | propext, Classical.choice, Quot.sound |
| C127 | `DieE.Props.Ee.C127_exchange` | propext, Classical.choice, Quot.sound |
| C127 | `DieE.Props.Ee.C127_law` | propext, Classical.choice, Quot.sound |
| C127 | `DieE.Props.Ee.C127_tictactoe` | propext, Classical.choice, Quot.sound |
| C127 | `DieE.Props.Ee.C127_equal` | propext, Classical.choice, Quot.sound |
| C128 | `DieE.Props.Cp.C128_tictactoe` | propext, Classical.choice, Quot.sound |
| C129 | `DieE.Props.Fi.C129` | propext, Classical.choice, Quot.sound |
| C129 | `DieE.Props.Fi.C129_far` | propext, Classical.choice, Quot.sound |
| C129 | `DieE.Props.Fi.C129_quiet` | propext, Classical.choice, Quot.sound |
| C129 | `DieE.Props.Fi.C129_tictactoe` | propext, Classical.choice, Quot.sound |
| C129 | `DieE.Props.Fi.C129_opening` | propext, Classical.choice, Quot.sound |
| C129 | `DieE.Props.Fi.C129_single` | propext, Classical.choice, Quot.sound |
| C129 | `DieE.Props.Fi.C129_backgammon` | propext, Classical.choice, Quot.sound |
| C129 | `DieE.Props.Fi.C129_backgammon_opening` | propext, Classical.choice, Quot.sound |
| C130 | `DieE.Props.Ou.C130` | propext, Classical.choice, Quot.sound |
| C130 | `DieE.Props.Ou.C130_lost` | propext, Classical.choice, Quot.sound |
| C130 | `DieE.Props.Ou.learn_of` | propext, Classical.choice, Quot.sound |
| C130 | `DieE.Props.Ou.learn_has` | propext, Classical.choice, Quot.sound |
| C131 | `DieE.Props.Ri.C131_tictactoe` | propext, Classical.choice, Quot.sound |
| C131 | `DieE.Props.Ri.C131_backgammon` | propext, Classical.choice, Quot.sound |
| C131 | `DieE.Props.Ri.C131_partial` | propext, Classical.choice, Quot.sound |
| C131 | `DieE.Props.Ri.C131_attached` | propext, Classical.choice, Quot.sound |
| C131 | `DieE.Props.Ri.C131_rejected` | propext, Classical.choice, Quot.sound |
| C131 | `DieE.Props.Ri.C131_refuted` | propext, Classical.choice, Quot.sound |
| C131 | `DieE.Props.Ri.play_many` | propext, Classical.choice, Quot.sound |
| C132 | `DieE.Props.Cs.C132_more` | propext, Classical.choice, Quot.sound |
| C132 | `DieE.Props.Cs.C132_less` | propext, Classical.choice, Quot.sound |
| C132 | `DieE.Props.Cs.C132_game` | propext, Classical.choice, Quot.sound |
| C132 | `DieE.Props.Cs.C132_backgammon` | propext, Classical.choice, Quot.sound |
| C132 | `DieE.Props.Cs.C132_equal` | propext, Classical.choice, Quot.sound |
| C132 | `DieE.Props.Cs.C132_random` | propext, Classical.choice, Quot.sound |
| C133 | `DieE.Props.Re.C133_tictactoe` | propext, Classical.choice, Quot.sound |
| C133 | `DieE.Props.Re.C133_backgammon` | propext, Classical.choice, Quot.sound |
| C133 | `DieE.Props.Re.C133_reports` | propext, Classical.choice, Quot.sound |
| C133 | `DieE.Props.Re.C133_determines` | propext, Classical.choice, Quot.sound |
| C133 | `DieE.Props.Re.C133_tictactoe_words` | propext, Classical.choice, Quot.sound |
| C133 | `DieE.Props.Re.C133_backgammon_words` | propext, Classical.choice, Quot.sound |
| C134 | `DieE.Props.Se.C134` | propext, Classical.choice, Quot.sound |
| C134 | `DieE.Props.Se.C134_learn` | propext, Classical.choice, Quot.sound |
| C134 | `DieE.Props.Se.C134_lost` | propext, Classical.choice, Quot.sound |
| C134 | `DieE.Props.Se.C134_play` | propext, Classical.choice, Quot.sound |
| C134 | `DieE.Props.Se.C134_train` | propext, Classical.choice, Quot.sound |
| C134 | `DieE.Props.Se.C134_files` | propext, Classical.choice, Quot.sound |
| C134 | `DieE.Props.Se.C134_data` | propext, Classical.choice, Quot.sound |
| C134 | `DieE.Props.Se.C134_main` | propext, Classical.choice, Quot.sound |
| C134 | `DieE.Props.Se.learn_returns` | propext, Classical.choice, Quot.sound |
| C134 | `DieE.Props.Se.C134_runs` | propext, Classical.choice, Quot.sound |
| C135 | `DieE.Props.Ad.C135_bounded` | propext, Classical.choice, Quot.sound |
| C135 | `DieE.Props.Ad.C135_rest` | propext, Classical.choice, Quot.sound |
| C135 | `DieE.Props.Ad.C135_undecayed` | propext, Classical.choice, Quot.sound |
| C135 | `DieE.Props.Ad.C135_network` | propext, Classical.choice, Quot.sound |
| C136 | `DieE.Props.Sa.C136_visits` | propext, Classical.choice, Quot.sound |
| C136 | `DieE.Props.Sa.C136_batch` | propext, Classical.choice, Quot.sound |
| C136 | `DieE.Props.Sa.C136_tensor` | propext, Classical.choice, Quot.sound |
| C136 | `DieE.Props.Sa.C136_vec` | propext, Classical.choice, Quot.sound |
| C136 | `DieE.Props.Sa.C136_pos` | propext, Classical.choice, Quot.sound |
| C136 | `DieE.Props.Sa.C136_total` | propext, Classical.choice, Quot.sound |
| C136 | `DieE.Props.Sa.C136_nan` | propext, Classical.choice, Quot.sound |
| C136 | `DieE.Props.Sa.C136_mix` | propext, Classical.choice, Quot.sound |
| C136 | `DieE.Props.Sa.C136_priors` | propext, Classical.choice, Quot.sound |
| C136 | `DieE.Props.Sa.C136_search` | propext, Classical.choice, Quot.sound |
| C136 | `DieE.Props.Sa.C136_finished` | propext, Classical.choice, Quot.sound |
| C137 | `DieE.Props.Sx.C137_softmax` | propext, Classical.choice, Quot.sound |
| C137 | `DieE.Props.Sx.C137_last` | propext, Classical.choice, Quot.sound |
| C137 | `DieE.Props.Sx.C137_finite` | propext, Classical.choice, Quot.sound |
| C137 | `DieE.Props.Sx.C137_centre` | propext, Classical.choice, Quot.sound |
| C138 | `DieE.Props.Py.C138_played` | propext, Classical.choice, Quot.sound |
| C138 | `DieE.Props.Py.C138_backgammon` | propext, Classical.choice, Quot.sound |
| C139 | `DieE.Props.Bt.C139_coupling` | propext, Classical.choice, Quot.sound |
| C139 | `DieE.Props.Bt.C139_shares` | propext, Classical.choice, Quot.sound |
| C139 | `DieE.Props.Bt.C139_backgammon` | propext, Classical.choice, Quot.sound |
| C140 | `DieE.Props.Gl.C140_length` | propext, Classical.choice, Quot.sound |
| C140 | `DieE.Props.Gl.C140_attained` | propext, Classical.choice, Quot.sound |
| C141 | `DieE.Props.Lb.C141_game` | propext, Classical.choice, Quot.sound |
| C141 | `DieE.Props.Lb.C141_run` | propext, Classical.choice, Quot.sound |
| C141 | `DieE.Props.Lb.C141_limit` | propext, Classical.choice, Quot.sound |
| C141 | `DieE.Props.Lb.C141_attained` | propext, Classical.choice, Quot.sound |
| C141 | `DieE.Props.Lb.C141_match` | propext, Classical.choice, Quot.sound |
| C142 | `DieE.Props.Og.C142_openings` | propext, Classical.choice, Quot.sound |
| C142 | `DieE.Props.Og.C142_single` | propext, Classical.choice, Quot.sound |
| C142 | `DieE.Props.Og.openings_unique` | none |
| C142 | `DieE.Props.Og.C142_sides` | propext, Classical.choice, Quot.sound |
| C142 | `DieE.Props.Og.C142_match` | propext, Classical.choice, Quot.sound |
| C142 | `DieE.Props.Og.C142_games` | propext, Classical.choice, Quot.sound |
| C142 | `DieE.Props.Og.C142_unlike` | propext, Classical.choice, Quot.sound |
| C143 | `DieE.Props.Lt.C143_game` | propext, Classical.choice, Quot.sound |
| C143 | `DieE.Props.Lt.C143_run` | propext, Classical.choice, Quot.sound |
| C144 | `DieE.Props.Am.C144_fragments` | propext, Classical.choice, Quot.sound |
| C144 | `DieE.Props.Am.C144_steps` | propext, Classical.choice, Quot.sound |
| C144 | `DieE.Props.Am.C144_example` | propext, Classical.choice, Quot.sound |
| C144 | `DieE.Props.Am.C144_run` | propext, Classical.choice, Quot.sound |
| C144 | `DieE.Props.Am.C144_drift` | propext, Classical.choice, Quot.sound |
| C145 | `DieE.Props.Am.C145_stored` | propext, Classical.choice, Quot.sound |
| C145 | `DieE.Props.Am.C145_example` | propext, Classical.choice, Quot.sound |
| C146 | `DieE.Props.Lt.C146_stages` | propext, Classical.choice, Quot.sound |
| C147 | `DieE.Props.Rs.C147_tictactoe` | propext, Classical.choice, Quot.sound |
| C147 | `DieE.Props.Rs.C147_backgammon` | propext, Classical.choice, Quot.sound |
| C147 | `DieE.Props.Rs.C147_normal` | propext, Classical.choice, Quot.sound |
