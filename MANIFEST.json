{
 "claims": [
  {
   "property": "C01",
   "status": "proved",
   "theorems": [
    "Verif.C01_board_move_fields",
    "Verif.C01_drop_move_fields",
    "Verif.C01_distinct_board",
    "Verif.C01_distinct_drop",
    "Verif.C01_drop_ne_board"
   ],
   "note": ""
  },
  {
   "property": "C02",
   "status": "proved",
   "theorems": [
    "Verif.C02_psv_roundtrip",
    "Verif.C02_psv_roundtrip",
    "Verif.C02_to_psv_fields",
    "Verif.C02_from_psv_fields"
   ],
   "note": ""
  },
  {
   "property": "C03",
   "status": "proved",
   "theorems": [
    "Verif.C03_move16_recovers",
    "Verif.C03_psv_recovers"
   ],
   "note": ""
  },
  {
   "property": "C04",
   "status": "proved",
   "theorems": [
    "Verif.C04_rotate_fields",
    "Verif.C04_rotate_involutive"
   ],
   "note": ""
  },
  {
   "property": "C05",
   "status": "proved",
   "theorems": [
    "Verif.C05_round_trip",
    "Verif.C05_injective"
   ],
   "note": ""
  },
  {
   "property": "C06",
   "status": "proved",
   "theorems": [
    "Verif.C06_round_trip",
    "Verif.C06_injective"
   ],
   "note": ""
  },
  {
   "property": "C07",
   "status": "partial",
   "theorems": [
    "Verif.C07_usi_tested",
    "Verif.C07_csa_tested",
    "Verif.C07_usi_exact",
    "Verif.C07_usi_partial",
    "Verif.C07_csa_partial",
    "Verif.C07_fails",
    "Verif.C07_fails_reads"
   ],
   "note": "False as stated (C07_fails: 7g7f+ and 7776TO in the start position, 0015TO with a pawn in hand; C07_fails_reads: empty and two-character strings are read beyond the terminator, king drops index out of range). Proved: every result is 0 or accepted by is_legal; C07_usi_exact: apart from those strings the result is 0 or a move that obeys all rules but those on promotion and unmovable pieces, and every such move but a pawn drop on the last rank is returned for its text; results that obey those rules too are in legal_moves."
  },
  {
   "property": "C08",
   "status": "proved",
   "theorems": [
    "Verif.C08_range_any",
    "Verif.C08_labels"
   ],
   "note": ""
  },
  {
   "property": "C09",
   "status": "proved",
   "theorems": [
    "Verif.C09_plusOne",
    "Verif.C09_minusOne",
    "Verif.C09_orEqual",
    "Verif.C09_empty",
    "Verif.C09_history",
    "Verif.C09_fill",
    "Verif.C09_numOfT",
    "Verif.C09_has"
   ],
   "note": ""
  },
  {
   "property": "C10",
   "status": "proved",
   "theorems": [
    "Verif.C10_superior_iff"
   ],
   "note": ""
  },
  {
   "property": "C11",
   "status": "proved",
   "theorems": [
    "Verif.C11_represents_unique",
    "Verif.C11_constants",
    "Verif.C11_set_operations",
    "Verif.C11_single_square",
    "Verif.C11_emptiness",
    "Verif.C11_popCount",
    "Verif.C11_isOneBit",
    "Verif.C11_popFirst",
    "Verif.C11_iteration"
   ],
   "note": ""
  },
  {
   "property": "C12",
   "status": "proved",
   "theorems": [
    "Verif.C12_lance",
    "Verif.C12_rook",
    "Verif.C12_bishop",
    "Verif.C12_bishop_portable",
    "Verif.C12_dragon",
    "Verif.C12_horse",
    "Verif.C12_no_stray_bits"
   ],
   "note": ""
  },
  {
   "property": "C13",
   "status": "proved",
   "theorems": [
    "Verif.C13_steps",
    "Verif.C13_no_stray_bits",
    "Verif.C13_between",
    "Verif.C13_relation",
    "Verif.C13_aligned",
    "Verif.C13_aligned_assuming",
    "Verif.C13_pawn_board"
   ],
   "note": ""
  },
  {
   "property": "C14",
   "status": "proved",
   "theorems": [
    "Verif.C14_attackersTo",
    "Verif.C14_attackersToBoth",
    "Verif.C14_attackersToExceptKing",
    "Verif.C14_attackersToIsAny"
   ],
   "note": ""
  },
  {
   "property": "C15",
   "status": "proved",
   "theorems": [
    "Verif.C15_setup",
    "Verif.C15_history",
    "Verif.C15_reading"
   ],
   "note": ""
  },
  {
   "property": "C16",
   "status": "proved",
   "theorems": [
    "Verif.C16_push",
    "Verif.C16_push_playable"
   ],
   "note": ""
  },
  {
   "property": "C17",
   "status": "proved",
   "theorems": [
    "Verif.C17_pop_push",
    "Verif.C17_nested"
   ],
   "note": ""
  },
  {
   "property": "C18",
   "status": "partial",
   "theorems": [
    "Verif.C18_flip",
    "Verif.C18_nested_partial",
    "Verif.C18_nested_up_to_counters_partial",
    "Verif.C18_counterexample"
   ],
   "note": "False in general (C18_counterexample: two nested passes lose the checking side's perpetual-check counter). Proved: everything else is restored by any nesting, and all of it is when each pass is made with the opponent's counter at 0."
  },
  {
   "property": "C19",
   "status": "proved",
   "theorems": [
    "Verif.C19_history",
    "Verif.C19_function",
    "Verif.C19_transposition"
   ],
   "note": ""
  },
  {
   "property": "C20",
   "status": "proved",
   "theorems": [
    "Verif.C20_keyAfter",
    "Verif.C20_bookKeyAfter",
    "Verif.C20_book_index"
   ],
   "note": ""
  },
  {
   "property": "C21",
   "status": "proved",
   "theorems": [
    "Verif.C21_setup",
    "Verif.C21_history",
    "Verif.C21_push"
   ],
   "note": ""
  },
  {
   "property": "C22",
   "status": "proved",
   "theorems": [
    "Verif.C22_moveGivesCheck"
   ],
   "note": ""
  },
  {
   "property": "C23",
   "status": "proved",
   "theorems": [
    "Verif.C23_pinned",
    "Verif.C23_pin_test",
    "Verif.C23_leaves_line"
   ],
   "note": ""
  },
  {
   "property": "C24",
   "status": "proved",
   "theorems": [
    "Verif.C24_sound"
   ],
   "note": "Legal position = Pos.Regular (one king each, the side not to move not in check, no dead pieces); consistency of the views and of the recorded checkers is C15/C21."
  },
  {
   "property": "C25",
   "status": "proved",
   "theorems": [
    "Verif.C25_complete",
    "Verif.C25_game_over",
    "Verif.C25_history",
    "Verif.C25_pseudo_legal"
   ],
   "note": ""
  },
  {
   "property": "C26",
   "status": "proved",
   "theorems": [
    "Verif.C26_count"
   ],
   "note": ""
  },
  {
   "property": "C27",
   "status": "partial",
   "theorems": [
    "Verif.C27_any_move",
    "Verif.C27_any_drop",
    "Verif.C27_loose",
    "Verif.C27_fails_capture",
    "Verif.C27_fails_promoted_drop",
    "Verif.C27_is_legal_partial",
    "Verif.C27_listed_partial",
    "Verif.C27_fails"
   ],
   "note": "False as stated (C27_fails: P7g-7f with promotion in the start position; C27_fails_capture: every capture without its captured piece is accepted and pushing it leaves a board that is_ok rejects; C27_fails_promoted_drop). Proved: everything in legal_moves is accepted; C27_any_move and C27_any_drop say for every integer with squares on the board exactly when it is accepted, C27_loose says it in terms of the rules, and is_legal agrees with legal_moves on every move that obeys the promotion and dead-square rules."
  },
  {
   "property": "C28",
   "status": "proved",
   "theorems": [
    "Verif.C28_pawn_drop_mate",
    "Verif.C28_test"
   ],
   "note": ""
  },
  {
   "property": "C29",
   "status": "proved",
   "theorems": [
    "Verif.C29_push",
    "Verif.C29_history"
   ],
   "note": ""
  },
  {
   "property": "C30",
   "status": "proved",
   "theorems": [
    "Verif.C30_play",
    "Verif.C30_kings",
    "Verif.C30_history"
   ],
   "note": ""
  },
  {
   "property": "C31",
   "status": "proved",
   "theorems": [
    "Verif.C31_round_trip",
    "Verif.C31_views",
    "Verif.C31_history"
   ],
   "note": "C31_round_trip covers any placement; C31_history adds the check status, which is defined by the rules when the side not to move is not in check."
  },
  {
   "property": "C32",
   "status": "partial",
   "theorems": [
    "Verif.C32_fails",
    "Verif.C32_safe_partial",
    "Verif.C32_views_partial"
   ],
   "note": "False as stated (C32_fails: promoted golds and kings, kings in hand, over-long counts, two pieces on one square). Proved: memory safety and agreement of the views for all texts without those features."
  },
  {
   "property": "C33",
   "status": "proved",
   "theorems": [
    "Verif.C33_hcp_round_trip",
    "Verif.C33_history"
   ],
   "note": ""
  },
  {
   "property": "C34",
   "status": "proved",
   "theorems": [
    "Verif.C34_psfen_round_trip"
   ],
   "note": ""
  },
  {
   "property": "C35",
   "status": "proved",
   "theorems": [
    "Verif.C35_exactly_256"
   ],
   "note": ""
  },
  {
   "property": "C36",
   "status": "proved",
   "theorems": [
    "Verif.C36_hcp_injective",
    "Verif.C36_psfen_injective",
    "Verif.C36_sfen_injective"
   ],
   "note": "hcp and psfen: positions with both kings and at most one set; sfen: any placement, hands within a set."
  },
  {
   "property": "C37",
   "status": "partial",
   "theorems": [
    "Verif.C37_verdict_partial",
    "Verif.C37_passes_partial",
    "Verif.C37_fails"
   ],
   "note": "False as stated (C37_fails: two passes popped in the middle of a perpetual check turn a win into a draw). Proved for all games of legal moves, take-backs and passes made with the opponent's perpetual-check counter at 0, and for all games whose passes are not popped, given that the positions compared do not collide in their 64-bit hashes."
  },
  {
   "property": "C38",
   "status": "proved",
   "theorems": [
    "Verif.C38_inside"
   ],
   "note": "move_is_draw: every limit above the smallest int (there checkMaxPly - 1 overflows)."
  },
  {
   "property": "C39",
   "status": "partial",
   "theorems": [
    "Verif.C39_not_partial",
    "Verif.C39_agree_partial",
    "Verif.C39_fails",
    "Verif.C39_fails_hands"
   ],
   "note": "False as stated (C39_fails: perpetual check repeating the first recorded position; C39_fails_hands: superior/inferior positions are not reported). Proved: equality outside these cases, and 'no repetition' is never wrong about draw, win or lose."
  },
  {
   "property": "C40",
   "status": "proved",
   "theorems": [
    "Verif.C40_declaration"
   ],
   "note": ""
  },
  {
   "property": "C41",
   "status": "partial",
   "theorems": [
    "Verif.C41_rotate_partial",
    "Verif.C41_twice_partial",
    "Verif.C41_fails"
   ],
   "note": "False as stated (C41_fails: 17P in hand becomes 7p). Proved for all positions with at most nine pieces of a kind in each hand."
  },
  {
   "property": "C42",
   "status": "proved",
   "theorems": [
    "Verif.C42_planes",
    "Verif.C42_rotated"
   ],
   "note": ""
  },
  {
   "property": "C43",
   "status": "partial",
   "theorems": [
    "Verif.C43_is_mate_partial",
    "Verif.C43_mate_move_partial",
    "Verif.C43_replies",
    "Verif.C43_fresh_partial",
    "Verif.C43_two_plies",
    "Verif.C43_three_plies",
    "Verif.C43_fails",
    "Verif.C43_fails_zero"
   ],
   "note": "False as stated: C43_fails (is_mate(4) true, but the opponent escapes by a bishop move that declines promotion, which the search leaves out) and C43_fails_zero (is_mate(0)). Proved for all positions and depths: the answer is sound for the game tree without such refusals and with the repetition verdicts the search uses (C43_is_mate_partial, C43_mate_move_partial, C43_fresh_partial), and the full claim for depths 2 and 3 (C43_two_plies, C43_three_plies). Provided the move buffer is not overrun (C57)."
  },
  {
   "property": "C44",
   "status": "proved",
   "theorems": [
    "Verif.Mem.C44_step",
    "Verif.Mem.C44_reads",
    "Verif.Mem.C44_copy",
    "Verif.Mem.C44_assign",
    "Verif.Mem.C44_independent"
   ],
   "note": "Boards are objects in an explicit heap; Rep says which board an object shows. Any interleaving of push, pop, push_pass and pop_pass on the two objects."
  },
  {
   "property": "C45",
   "status": "proved",
   "theorems": [
    "Verif.Csa.C45_dump"
   ],
   "note": "All placements, any hands within a set, with or without kings."
  },
  {
   "property": "C46",
   "status": "partial",
   "theorems": [
    "Verif.Csa.C46_fails",
    "Verif.Csa.C46_middle_partial",
    "Verif.Csa.C46_fails_reads"
   ],
   "note": "False as stated (C46_fails: for every piece and square the digits are swapped and mirrored; only 5-5 is right. C46_fails_reads: boards without rank lines, and 00AL, are undefined behaviour)."
  },
  {
   "property": "C47",
   "status": "partial",
   "theorems": [
    "Verif.C47_rules",
    "Verif.C47_capacity_partial",
    "Verif.C47_history_partial",
    "Verif.C47_tight",
    "Verif.C47_fails"
   ],
   "note": "False as stated (C47_fails: set_sfen accepts a position with a third rook that has 599 legal moves, buffer 594). Proved: with at most the pieces of one set (and one king each, the side not to move not in check) at most 593 moves are written, and C47_tight shows a position with 593."
  },
  {
   "property": "C48",
   "status": "proved",
   "theorems": [
    "Verif.C48_promotion_zone"
   ],
   "note": ""
  },
  {
   "property": "C49",
   "status": "partial",
   "theorems": [
    "Verif.C49_fails",
    "Verif.C49_in_bounds_iff_partial"
   ],
   "note": "False as stated (C49_fails: every position lacking a king overruns the buffer, a mate problem is the example). Proved: within one set the encoders stay inside exactly for positions with both kings."
  },
  {
   "property": "C50",
   "status": "partial",
   "theorems": [
    "Verif.C50_fails",
    "Verif.C50_overflow",
    "Verif.C50_views_partial"
   ],
   "note": "False as stated (C50_fails: king squares above 80, and reads past the end; C50_overflow: hand counters overflow). Proved: whenever decoding returns with the kings on different squares, board array, bitboards and keys agree."
  },
  {
   "property": "C51",
   "status": "partial",
   "theorems": [
    "Verif.Mem.C51_fails",
    "Verif.Mem.C51_empty_partial"
   ],
   "note": "False as stated (C51_fails: with a move on the history, the record of the current state has been freed, and every query or push reads it). Proved for boards without moves on the history."
  },
  {
   "property": "C52",
   "status": "proved",
   "theorems": [
    "Verif.Csa.C52_record"
   ],
   "note": "Times written with the default separator (own line); the start position is written as PI or as a full dump, as the exporter does for a board. std::stof is a parameter (only ratings use it)."
  },
  {
   "property": "C53",
   "status": "proved",
   "theorems": [
    "Verif.Csa.C53_handicap"
   ],
   "note": ""
  },
  {
   "property": "C54",
   "status": "partial",
   "theorems": [
    "Verif.Csa.C54_fails",
    "Verif.Csa.C54_stored_partial"
   ],
   "note": "False as stated (C54_fails: before the first move the comment writes out of range, whatever it says). Proved: after a move it does what it should."
  },
  {
   "property": "C55",
   "status": "partial",
   "theorems": [
    "Verif.C55_mate1_partial",
    "Verif.C55_history_partial",
    "Verif.C55_no_king",
    "Verif.C55_fails",
    "Verif.C55_fails_in_check"
   ],
   "note": "False as stated: C55_fails (a promoted minor piece uncovering a check is called a gold in the returned move, which is then not in legal_moves) and C55_fails_in_check (called in check it may return an illegal move). Proved for all regular positions not in check: the answer stands for a legal mating move (same 16-bit move), and is that move exactly unless a promoted minor moves."
  },
  {
   "property": "C56",
   "status": "partial",
   "theorems": [
    "Verif.C56_fails",
    "Verif.C56_contact_partial",
    "Verif.C56_drop_partial",
    "Verif.C56_slide_partial",
    "Verif.C56_zero_partial",
    "Verif.C56_fails_drop",
    "Verif.C56_fails_slide"
   ],
   "note": "False as stated: distant checks are given up when the opponent holds a piece other than a pawn, even if it may not be dropped in between (C56_fails, C56_fails_drop), and when more than three squares next to the king are free (C56_fails_slide: a dragon mates from two squares away). Proved: a mate is found whenever some legal mating move gives check with the piece played from a square with none between it and the king (C56_contact_partial); so is every mating drop, from any distance, unless the opponent holds a piece that may not be dropped in between (C56_drop_partial); so is every mating check by a line piece moved to the second square from the king that uncovers no line, if at most three squares next to the king are free and the opponent has no two pawns on a file (C56_slide_partial). C56_zero_partial: what an answer of 0 says. Missing: moves of line pieces from farther away than two squares and uncovered checks."
  },
  {
   "property": "C57",
   "status": "partial",
   "theorems": [
    "Verif.C57_is_mate_partial",
    "Verif.C57_mate_move_partial",
    "Verif.C57_fails"
   ],
   "note": "False as stated (C57_fails: 92 legal answers to a check with one set of pieces). Proved: within 91 moves everywhere in the tree, both functions return."
  },
  {
   "property": "C58",
   "status": "proved",
   "theorems": [
    "Verif.C58_unchanged",
    "Verif.C58_history"
   ],
   "note": "For every regular position, every argument and every call that returns; also along all games of legal pushes, passes and take-backs."
  },
  {
   "property": "C59",
   "status": "partial",
   "theorems": [
    "Verif.C59_search_andnode_partial",
    "Verif.C59_search_partial",
    "Verif.C59_fails"
   ],
   "note": "False as stated: C59_fails (search_andnode true, but the opponent escapes for good by taking without promotion, a reply the search leaves out). Proved for all positions, settings and searches that end: the answer is sound if the opponent never declines a promotion, no two positions of the search with different boards share a hash key, and no repetition is judged a win for the attacker (Clean). Missing: repetitions, and replies that decline a promotion."
  },
  {
   "property": "C60",
   "status": "partial",
   "theorems": [
    "Verif.C60_get_move_partial"
   ],
   "note": "Under the same hypotheses as C59, also for later positions of the search. Missing: as for C59."
  },
  {
   "property": "C61",
   "status": "proved",
   "theorems": [
    "Verif.C61_search",
    "Verif.C61_search_andnode"
   ],
   "note": "For every regular position, every setting, every table of keys and every search that ends; for search_andnode where the side to move is in check."
  },
  {
   "property": "C62",
   "status": "partial",
   "theorems": [
    "Verif.C62_get_pv_legal",
    "Verif.C62_get_pv_wins_partial"
   ],
   "note": "Proved for any table and any keys: the board is put back, the moves are legal in turn and each move of the beginner gives check (the last may carry the piece mislabelled by mate_move_in_1ply, see C55). Under the hypotheses of C59: the opponent loses by force after each check within the limit of depth. Missing: as for C59, and the moves beyond the limit of depth."
  },
  {
   "property": "C63",
   "status": "proved",
   "theorems": [
    "Verif.C63_features1",
    "Verif.C63_cells1",
    "Verif.C63_features2"
   ],
   "note": "Both arrays, cell by cell, for any earlier contents, with and without the declaration planes; C63_cells1 shows that the cells named are all cells of the first array."
  },
  {
   "property": "C64",
   "status": "partial",
   "theorems": [
    "Verif.C64_declaration_partial",
    "Verif.C64_fails_count",
    "Verif.C64_fails_points",
    "Verif.C64_fails_stale",
    "Verif.C64_fails_rich",
    "Verif.C64_fails"
   ],
   "note": "False as stated: C64_fails (more than ten pieces or more points than needed leave all planes empty because a negative int is compared with an unsigned bound; the planes are never cleared). Proved: right if the planes are zero beforehand and neither count is exceeded."
  },
  {
   "property": "C65",
   "status": "proved",
   "theorems": [
    "Verif.Kif.C65_record"
   ],
   "note": "By induction on the game, for every named start. Names must fit in a line."
  },
  {
   "property": "C66",
   "status": "partial",
   "theorems": [
    "Verif.Kif.C66_named_partial",
    "Verif.Kif.C66_fails_board",
    "Verif.Kif.C66_fails"
   ],
   "note": "False as stated: for every start given as a board the parser reports the starting position (C66_fails_board, C66_fails). Proved for named starts."
  },
  {
   "property": "C67",
   "status": "partial",
   "theorems": [
    "Verif.Kif.C67_even_partial",
    "Verif.Kif.C67_fails_handicap",
    "Verif.Kif.C67_fails_declaration"
   ],
   "note": "False as stated: in every handicap game the side that resigned is reported as the winner (C67_fails_handicap); declarations are not read (C67_fails_declaration). Proved for games without handicap that end by resignation, impasse or repetition."
  },
  {
   "property": "C68",
   "status": "partial",
   "theorems": [
    "Verif.Ki2.C68_plain_partial",
    "Verif.Ki2.C68_fails_drop",
    "Verif.Ki2.C68_fails_three",
    "Verif.Ki2.C68_fails_line"
   ],
   "note": "False as stated: the text can be read as a drop (C68_fails_drop), be ambiguous among three pieces (C68_fails_three), and lines with two moves are not read (C68_fails_line). Proved for every single legal move with at most one rival and, if there is one, no drop of the kind on the square."
  },
  {
   "property": "C69",
   "status": "partial",
   "theorems": [
    "Verif.Ki2.C69_record_partial"
   ],
   "note": "Proved for games of moves for which C68 is; the others fail as C68 does."
  },
  {
   "property": "C70",
   "status": "partial",
   "theorems": [
    "Verif.Ki2.C70_result_partial",
    "Verif.Ki2.C70_fails_action",
    "Verif.Ki2.C70_fails_move"
   ],
   "note": "False for illegal actions and illegal moves, in every game (C70_fails_action, C70_fails_move). Proved for resignation, impasse, declaration and repetition, in games as in C69."
  },
  {
   "property": "C71",
   "status": "partial",
   "theorems": [
    "Verif.Pgn.C71_move_partial",
    "Verif.Pgn.C71_fails_knight",
    "Verif.Pgn.C71_words_partial",
    "Verif.Pgn.C71_fails_empty",
    "Verif.Pgn.C71_determined"
   ],
   "note": "False for promoted knights, written +K instead of +N (C71_fails_knight), and for games without moves, whose result is not written (C71_fails_empty). Proved for all other moves and games; injectivity is proved without exception."
  },
  {
   "property": "C72",
   "status": "partial",
   "theorems": [
    "Verif.Pgn.C72_lines_partial",
    "Verif.Pgn.C72_fails"
   ],
   "note": "False by one character (C72_fails: a line of 81). Proved with the bound 81."
  },
  {
   "property": "C73",
   "status": "proved",
   "theorems": [
    "Verif.C73_read",
    "Verif.C73_set",
    "Verif.C73_again",
    "Verif.C73_turn",
    "Verif.C73_turn_sfen",
    "Verif.C73_fails_pop"
   ],
   "note": "C73_read, C73_set, C73_again, C73_turn, C73_turn_sfen. Beside it: assigning turn keeps the history, and a later pop then writes the piece back in the wrong colour (C73_fails_pop)."
  },
  {
   "property": "C74",
   "status": "proved",
   "theorems": [
    "Verif.C74_true",
    "Verif.C74_iff",
    "Verif.C74_game",
    "Verif.C74_blind"
   ],
   "note": "C74_game and C74_true; C74_iff says exactly what is_ok tests on a consistent position. It does not look at the golds table, the stored king squares and the checkers themselves (C74_blind)."
  },
  {
   "property": "C75",
   "status": "partial",
   "theorems": [
    "Verif.C75_sfen",
    "Verif.C75_startpos",
    "Verif.C75_illegal_partial",
    "Verif.C75_fails_loose",
    "Verif.C75_fails_word",
    "Verif.C75_fails_promotion"
   ],
   "note": "C75_sfen and C75_startpos in full. Raising is proved for every move that breaks a rule other than those on promotion and unmovable pieces (C75_illegal_partial); every other move that is not legal is taken, pawn drops on the last rank set aside (C75_fails_loose, C75_fails_promotion), and the word behind startpos is passed over whatever it is (C75_fails_word)."
  },
  {
   "property": "C76",
   "status": "partial",
   "theorems": [
    "Verif.C76_step_partial",
    "Verif.C76_fails"
   ],
   "note": "C76_step_partial covers every legal line and every move, with the reward of a fourfold repetition for repetitions of one kind throughout and positions with different hashes; the code looks only at the last round of the repetition (C76_fails)."
  },
  {
   "property": "C77",
   "status": "partial",
   "theorems": [
    "Verif.Match.C77_result_partial",
    "Verif.Match.C77_fails",
    "Verif.Match.C77_fails_limit",
    "Verif.Match.C77_fails_mate",
    "Verif.Match.C77_fails_garbage",
    "Verif.Match.C77_fails_declare",
    "Verif.Match.C77_fails_byoyomi"
   ],
   "note": "C77_result_partial covers all games without the cases in which the runner is wrong, with uniqueness of the result. Wrong: the fourth occurrence of the first position is not seen (C77_fails), perpetual check and announced mate on the last ply are called draws (C77_fails_limit, C77_fails_mate), an announced mate is pushed without a test (C77_fails_garbage: undefined behaviour), declarations are not tested (C77_fails_declare), byoyomi is not counted (C77_fails_byoyomi)."
  },
  {
   "property": "C78",
   "status": "proved",
   "theorems": [
    "Verif.Match.C78_counts"
   ],
   "note": "C78_counts for every list of results. With games = 0 the code would raise NameError; the property speaks of matches with a game."
  },
  {
   "property": "C79",
   "status": "partial",
   "theorems": [
    "Verif.Match.C79_text_partial",
    "Verif.Match.C79_reason_partial",
    "Verif.Match.C79_fails"
   ],
   "note": "C79_text_partial covers every ending but the one written as ILLEGAL_MOVE without %, which says nothing (C79_fails). C79_reason_partial: the line gives the reason, too, for the games of C77_result_partial."
  },
  {
   "property": "C80",
   "status": "partial",
   "theorems": [
    "Verif.C80_quiet_partial",
    "Verif.C80_check_partial",
    "Verif.C80_fails"
   ],
   "note": "C80_quiet_partial: out of check list, test and rules agree for moves whose promotion flag is possible; C80_check_partial: with pseudo_legal_move_is_legal they agree in check as well. In check the list has moves of the king that the test denies (C80_fails); wrong promotions are accepted (C27_fails)."
  },
  {
   "property": "C81",
   "status": "partial",
   "theorems": [
    "Verif.Usi.C81_sfen",
    "Verif.Usi.C81_startpos",
    "Verif.Usi.C81_fails"
   ],
   "note": "C81_sfen and C81_startpos, every legal position and line. C81_fails: given what Board.sfen() returns, the word sfen is missing and set_position refuses the line."
  },
  {
   "property": "C82",
   "status": "partial",
   "theorems": [
    "Verif.Usi.C82_go_partial",
    "Verif.Usi.C82_fails_increment",
    "Verif.Usi.C82_answer",
    "Verif.Usi.C82_fails_eof"
   ],
   "note": "C82_go_partial: every limit behind its name unless byoyomi comes with an increment, which is then dropped (C82_fails_increment). C82_answer: the first bestmove line. C82_fails_eof: without an answer go waits for ever, because a text is compared with bytes."
  },
  {
   "property": "C83",
   "status": "partial",
   "theorems": [
    "Verif.Usi.C83_pv",
    "Verif.Usi.C83_score_partial",
    "Verif.Usi.C83_info_partial",
    "Verif.Usi.C83_fails_mate",
    "Verif.Usi.C83_fails_bare",
    "Verif.Usi.C83_fails_bound"
   ],
   "note": "C83_pv; C83_score_partial and C83_info_partial for scores with a number and lines of named numbers (names of lower-case letters). Mates of unknown length always raise (C83_fails_mate), as does a line with nothing before pv (C83_fails_bare); lowerbound and upperbound raise or swallow the next number (C83_fails_bound)."
  },
  {
   "property": "C84",
   "status": "partial",
   "theorems": [
    "Verif.Usi.C84_score",
    "Verif.Usi.C84_differs",
    "Verif.Usi.C84_comment_partial",
    "Verif.Usi.C84_record_partial",
    "Verif.Usi.C84_fails_promotion"
   ],
   "note": "C84_score for all scores (a mate in 0 is left open; the two readers differ on it, C84_differs); C84_comment_partial and C84_record_partial for every legal line followed by nothing or by a move that breaks a rule other than those on promotion and unmovable pieces. False for wrong promotions, which are written into the record (C84_fails_promotion)."
  },
  {
   "property": "C85",
   "status": "partial",
   "theorems": [
    "Verif.C85_is_mate_exact",
    "Verif.C85_mate_move_exact",
    "Verif.C85_is_mate_partial",
    "Verif.C85_mate_move_partial",
    "Verif.C85_deeper",
    "Verif.C85_fails"
   ],
   "note": "False as stated: C85_fails (a reply that gives check makes is_mate(2) answer false although White then mates at once), and through the mates in one that are missed (C56_fails). Proved for all positions, histories and depths: the answer is true exactly when every reply (not declining a promotion) leads on to a check, and so on, to a position where mate_move_in_1ply finds a mate and the mating side is not in check (C85_is_mate_exact, C85_mate_move_exact); no legal check is left out. In plain rules, for depths 2-5 on a fresh board: every forced mate whose last move checks from next to the king is found (C85_is_mate_partial, C85_mate_move_partial). is_mate(2) implies is_mate(4) (C85_deeper). All provided the buffer is not overrun (C57)."
  },
  {
   "property": "C86",
   "status": "partial",
   "theorems": [
    "Verif.Csa.C86_record_partial",
    "Verif.Csa.C86_file_partial",
    "Verif.Csa.C86_again_partial",
    "Verif.Csa.C86_fails_remark",
    "Verif.Csa.C86_fails_ascii",
    "Verif.Csa.C86_fails_comment",
    "Verif.Csa.C86_fails_text",
    "Verif.Csa.C86_comma_partial",
    "Verif.Csa.C86_fails_comma"
   ],
   "note": "C86_record_partial and C86_file_partial for every header on whole lines, every start, all legal moves, times and comments, and any number of games; C86_again_partial (writing what was read gives the same header); C86_comma_partial. False in general: remarks on a move that are not evaluations end up in the game's comment (C86_fails_remark), comments of moves outside ASCII cannot be looked at (C86_fails_ascii), a comment beginning with an apostrophe and not ending in a newline swallows the position (C86_fails_comment), a start given as text raises (C86_fails_text), the comma as separator loses time and comment (C86_fails_comma)."
  },
  {
   "property": "C87",
   "status": "partial",
   "theorems": [
    "Verif.Bod.C87_diagram",
    "Verif.Bod.C87_start",
    "Verif.Bod.C87_last_partial",
    "Verif.Bod.C87_fails_same",
    "Verif.Bod.C87_fails_pass",
    "Verif.Bod.C87_fails_null",
    "Verif.Bod.C87_fails_ambiguous"
   ],
   "note": "C87_diagram (an independent reader finds placement, hands and side in every text to_bod returns), C87_start and C87_last_partial (to_bod leaves the board as it was and names number, player, square and piece of the last move). False for moves to the square of the move before whose text does not have a space after the sign for 'same': the first character of the piece's name is dropped (C87_fails_same), so that two legal moves get one text (C87_fails_ambiguous); after a pass to_bod is undefined (C87_fails_pass), and a move to 1b after a pass is called a recapture (C87_fails_null)."
  },
  {
   "property": "C88",
   "status": "partial",
   "theorems": [
    "Verif.Csa.C88_rating_partial",
    "Verif.Csa.C88_fails_rating",
    "Verif.Csa.C88_effect",
    "Verif.Csa.C88_summary_partial",
    "Verif.Csa.C88_fails_winner",
    "Verif.Csa.C88_fails_side",
    "Verif.Csa.C88_fails"
   ],
   "note": "False as stated: a summary that names a winner leaves the game a draw for every reason but an illegal move (C88_fails_winner; C88_fails: broken connection), an illegal move that stands in the record is held against the other side (C88_fails_side), and a name with a colon makes the parser refuse the record or read a wrong rating (C88_fails_rating). Proved: what a summary changes for every reason (C88_effect), when the winner is right (C88_summary_partial), ratings for names without a colon (C88_rating_partial). Nothing is missing: the rest of the statement is false."
  },
  {
   "property": "C89",
   "status": "partial",
   "theorems": [
    "Verif.Svg.C89_board",
    "Verif.Svg.C89_marks",
    "Verif.Svg.C89_unmarked",
    "Verif.Svg.C89_hand",
    "Verif.Svg.C89_repr",
    "Verif.Svg.C89_fails_turn",
    "Verif.Svg.C89_fails_pass"
   ],
   "note": "False as stated: the side to move is not drawn (C89_fails_turn), and after a pass the square 1b is coloured as if a piece had moved there (C89_fails_pass). Proved: the board (C89_board), the hands with their order, numbers and place on the page (C89_hand), the marks of a move or none (C89_marks, C89_unmarked), the notebook's picture after a legal move (C89_repr). Nothing is missing: the rest of the statement is false."
  },
  {
   "property": "C90",
   "status": "partial",
   "theorems": [
    "Verif.VecEnv.C90_alone_partial",
    "Verif.VecEnv.C90_returns",
    "Verif.VecEnv.C90_legal",
    "Verif.VecEnv.C90_fails_refused",
    "Verif.VecEnv.C90_fails_long",
    "Verif.VecEnv.C90_fails_short"
   ],
   "note": "False as stated: when a move is refused the games before it have been played on and their rewards are lost (C90_fails_refused), with too many moves all have (C90_fails_long), and games without a move are passed over in silence (C90_fails_short). Proved: as long as nothing is raised every game runs as if alone (C90_alone_partial), when nothing is raised (C90_returns), and what legal moves and resignations do (C90_legal). Nothing is missing: the rest of the statement is false."
  },
  {
   "property": "C91",
   "status": "partial",
   "theorems": [
    "Verif.C91_ratios",
    "Verif.C91_none",
    "Verif.C91_diff",
    "Verif.C91_swapped",
    "Verif.C91_order",
    "Verif.C91_defined",
    "Verif.C91_margin",
    "Verif.C91_margin_sign",
    "Verif.C91_los",
    "Verif.C91_fails_los",
    "Verif.C91_line_partial",
    "Verif.C91_fails_draws",
    "Verif.C91_fails_margin"
   ],
   "note": "Over exact real numbers. False as stated: los divides by zero if every game was drawn (C91_fails_los), there is no margin after one win each (C91_fails_margin), and the draws are printed as a fraction followed by a percent sign (C91_fails_draws). Proved: the ratios, the difference and when it exists, exchange of the players, order, the margin where it exists, los (C91_ratios, C91_none, C91_diff, C91_defined, C91_swapped, C91_order, C91_margin, C91_margin_sign, C91_los). C91_line_partial leaves out the case that the lower end of the interval is exactly zero, where a ZeroDivisionError would not be caught; whether counts with that property exist is open."
  },
  {
   "property": "C92",
   "status": "proved",
   "theorems": [
    "Verif.C92_reading",
    "Verif.C92_reading_pseudo",
    "Verif.C92_games"
   ],
   "note": "Reading (C92_reading, C92_reading_pseudo) and counting games by push and pop to any depth (C92_games). That the list is not affected by changes of the board is part of the model: the list is a value copied when it is made, as in the code."
  },
  {
   "property": "C93",
   "status": "partial",
   "theorems": [
    "Verif.Usi.C93_info_partial",
    "Verif.Usi.C93_fails_mate",
    "Verif.Usi.C93_fails_empty",
    "Verif.Usi.C93_fails_string"
   ],
   "note": "False as stated: one line with a mate of unknown length, or with an empty list of moves, makes info raise for all variations (C93_fails_mate, C93_fails_empty), and messages are taken for variations (C93_fails_string). Proved for all other lines (C93_info_partial), provided no move is called multipv."
  },
  {
   "property": "C94",
   "status": "partial",
   "theorems": [
    "Verif.Web.C94_page_partial",
    "Verif.Web.C94_fails_clock",
    "Verif.Web.C94_fails_asked",
    "Verif.Web.C94_fails_repetition",
    "Verif.Web.C94_fails_declare"
   ],
   "note": "False as stated: with a clock the match ends with an exception at the first reply (C94_fails_clock), after the end of the game the page asks for a move (C94_fails_asked), and games that the match runner judges wrongly are shown wrongly (C94_fails_repetition, C94_fails_declare). Proved for games without a clock that the match runner judges rightly, with the reason for the end, and with all lines of information that consist of numbers, a score and a legal variation (C94_page_partial)."
  },
  {
   "property": "C95",
   "status": "partial",
   "theorems": [
    "Verif.Web.C95_replay_partial",
    "Verif.Web.C95_fails_white",
    "Verif.Web.C95_fails_kachi",
    "Verif.Web.C95_fails_end",
    "Verif.Web.C95_fails_empty",
    "Verif.Web.C95_fails_words",
    "Verif.Web.C95_fails_same"
   ],
   "note": "False as stated: when White moves first every sign is wrong (C95_fails_white); endings that are not in the table, among them the two for perpetual check that the match runner writes, games without a move and comments with words but no number end with an exception (C95_fails_end, C95_fails_empty, C95_fails_words); a declared win is shown with a misspelt text (C95_fails_kachi); variations never write \u540c (C95_fails_same). Proved for all other games whose comments are evaluations with legal variations, remarks or nothing (C95_replay_partial)."
  },
  {
   "property": "C96",
   "status": "proved",
   "theorems": [
    "Verif.C96_history",
    "Verif.C96_determined"
   ],
   "note": "Operations that the rules allow: legal moves, pops of moves, passes out of check and pops of passes. C96_determined: the standing game determines the position."
  },
  {
   "property": "C97",
   "status": "partial",
   "theorems": [
    "Verif.C97_push",
    "Verif.C97_game",
    "Verif.C97_text",
    "Verif.C97_illegal_partial",
    "Verif.C97_fails_zero",
    "Verif.C97_fails_number",
    "Verif.C97_fails_gold"
   ],
   "note": "C97_push and C97_game: legal moves, any mix of formats. C97_text: texts answered with 0 change nothing. C97_illegal_partial: moves that break a rule other than those about promotion and unmovable pieces. Fails: the number 0 is undefined behaviour (C97_fails_zero), numbers of illegal moves are played (C97_fails_number), the text of a promotion of a gold is undefined behaviour (C97_fails_gold)."
  },
  {
   "property": "C98",
   "status": "partial",
   "theorems": [
    "Verif.Usi.C98_heard",
    "Verif.Usi.C98_session_partial",
    "Verif.Usi.C98_fails_ponder",
    "Verif.Usi.C98_fails_bool",
    "Verif.Usi.C98_fails_name",
    "Verif.Usi.C98_fails_eof",
    "Verif.Usi.C98_lines"
   ],
   "note": "C98_heard: the engine hears the command of the call. C98_session_partial: a whole session, for calls that do not ponder and whose arguments are plain (no newline, no word moves or value where it separates, increments not together with byoyomi, options that are not truth values). C98_lines: for every program at the other end no line is lost or read twice. Fails: go with ponder=True never returns (C98_fails_ponder), truth values are sent as True and False (C98_fails_bool), connecting to an engine with a name that is not ASCII raises (C98_fails_name), without usiok connect never returns although the code means to raise EOFError (C98_fails_eof)."
  },
  {
   "property": "C99",
   "status": "partial",
   "theorems": [
    "Verif.Kif.C99_remark_partial",
    "Verif.Kif.C99_record_partial",
    "Verif.Kif.C99_fails_mate",
    "Verif.Kif.C99_fails_time",
    "Verif.Kif.C99_fails_string",
    "Verif.Kif.C99_fails_handicap"
   ],
   "note": "C99_remark_partial: one remark. C99_record_partial: a whole record of an even game. They cover times that are not rounded up to a full minute, mates with a sign, and other words that are not time, depth, nodes or score. Fails: mates without a sign (C99_fails_mate), times just below a minute (C99_fails_time), messages with such a word, for which info raises (C99_fails_string), games with a handicap, where White moves first and the sign of the value is wrong (C99_fails_handicap). The floating-point time is any rounding to the nearest tenth."
  },
  {
   "property": "C100",
   "status": "partial",
   "theorems": [
    "Verif.Match.C100_file",
    "Verif.Match.C100_list",
    "Verif.Match.C100_even",
    "Verif.Match.C100_opening",
    "Verif.Match.C100_result_partial",
    "Verif.Match.C100_fails_zero",
    "Verif.Match.C100_fails_illegal",
    "Verif.Match.C100_fails_words",
    "Verif.Match.C100_fails_empty"
   ],
   "note": "C100_file, C100_list: what the file says is what is read. C100_even: which game has which opening, with which colours. C100_opening: the moves played, recorded and told to the engines. C100_result_partial: the result, under the conditions of C77. Fails: a limit of 0 or less, with which one move is still played (C100_fails_zero); illegal moves, which are passed over on the board but told to the engines (C100_fails_illegal); lines with other words in front (C100_fails_words); an empty file (C100_fails_empty)."
  },
  {
   "property": "C101",
   "status": "partial",
   "theorems": [
    "Verif.Pgn.C101_file_partial",
    "Verif.Pgn.C101_match_partial",
    "Verif.Pgn.C101_fails_name",
    "Verif.Pgn.C101_fails_empty"
   ],
   "note": "C101_file_partial and C101_match_partial, for texts without quotes and backslashes, games with at least one move and no move of a promoted knight (C71). Fails: names with quotes make the line unreadable, backslashes vanish from names (C101_fails_name); a game without moves has no result behind its moves (C101_fails_empty)."
  },
  {
   "property": "C102",
   "status": "partial",
   "theorems": [
    "Verif.Web.C102_taken_partial",
    "Verif.Web.C102_safe",
    "Verif.Web.C102_played",
    "Verif.Web.C102_fails_race",
    "Verif.Web.C102_fails_text",
    "Verif.Web.C102_fails_command",
    "Verif.Web.C102_fails_name"
   ],
   "note": "C102_taken_partial (what is taken was sent for this number and obeys all rules but those about promotion, if no request for another number follows one for this number), C102_safe, C102_played. Fails: the text of a request for another number can be played (C102_fails_race); a request without a move raises in the game and short texts are read beyond their end (C102_fails_text); what follows a drop, also after a new line, is told to the engine (C102_fails_command); the answer to /move asks by name (C102_fails_name)."
  },
  {
   "property": "C103",
   "status": "partial",
   "theorems": [
    "Verif.Match.C103_league",
    "Verif.Match.C103_number_partial",
    "Verif.Match.C103_fails_odd",
    "Verif.Match.C103_settings",
    "Verif.Match.C103_values_partial",
    "Verif.Match.C103_fails_values",
    "Verif.Match.C103_fails_zero",
    "Verif.Match.C103_options_partial",
    "Verif.Match.C103_options_last",
    "Verif.Match.C103_fails_options"
   ],
   "note": "C103_league (table, sides, openings, settings), C103_settings; C103_number_partial for an even number of games; C103_values_partial, C103_options_partial. Fails: with an odd number each pair plays one game more and the output says so (C103_fails_odd); two values are not for two of three engines, three values raise in a match of two (C103_fails_values); no games raise (C103_fails_zero); values with commas cannot be given (C103_fails_options)."
  },
  {
   "property": "C104",
   "status": "partial",
   "theorems": [
    "Verif.Match.C104_same",
    "Verif.Match.C104_file_partial",
    "Verif.Match.C104_rules_partial",
    "Verif.Match.C104_names",
    "Verif.Match.C104_kept",
    "Verif.Match.C104_fails_name",
    "Verif.Match.C104_fails_ponder",
    "Verif.Match.C104_fails_variation",
    "Verif.Match.C104_fails_ending",
    "Verif.Match.C104_fails_perpetual"
   ],
   "note": "C104_file_partial (whole files of games), C104_rules_partial (with the rules of the game), C104_same (the record changes nothing), C104_names and C104_kept (files in a directory). Fails: a perpetual check by the side to move is written as ILLEGAL_MOVE without %, and the whole file can no longer be read (C104_fails_ending, C104_fails_perpetual); with pondering, score and variation are lost or belong to another search (C104_fails_ponder); a variation that begins with another move (C104_fails_variation); two games of the same players in one second share a file (C104_fails_name)."
  },
  {
   "property": "C105",
   "status": "partial",
   "theorems": [
    "Verif.Web.C105_same",
    "Verif.Web.C105_again_partial",
    "Verif.Web.C105_rules_partial",
    "Verif.Web.C105_fails_seconds",
    "Verif.Web.C105_fails_variation",
    "Verif.Web.C105_fails_declare",
    "Verif.Web.C105_fails_opening"
   ],
   "note": "C105_same (keeping the file changes nothing on the page), C105_again_partial (the file is written, read and shown, row by row, with result), C105_rules_partial (with the rules of the game as the only premise on the end). Fails: the page rounds seconds up and the file rounds them down, so every turn that is no whole number of seconds differs by one (C105_fails_seconds); the variations are notated without the mark for the same square and with the colour (C105_fails_variation); after a declaration the replay does not say who has won (C105_fails_declare); a game without a move, or one ended by the perpetual check of the side to move, cannot be opened (C105_fails_opening)."
  },
  {
   "property": "C106",
   "status": "partial",
   "theorems": [
    "Verif.Match.C106_duel_partial",
    "Verif.Match.C106_minds_partial",
    "Verif.Match.C106_rules_partial",
    "Verif.Match.C106_fails_increment",
    "Verif.Match.C106_fails_silent",
    "Verif.Match.C106_fails_silent_game",
    "Verif.Match.C106_fails_stale"
   ],
   "note": "C106_duel_partial (any two programs that follow the protocol), C106_minds_partial (engines made with cshogi: the game at the board), C106_rules_partial (its result by the rules). Without pondering. Fails: with byoyomi the increments are not told (C106_fails_increment); an engine that does not answer or has ended keeps the match waiting for ever, whatever its clock (C106_fails_silent, C106_fails_silent_game); a bestmove too many is taken for the next answer (C106_fails_stale)."
  },
  {
   "property": "C107",
   "status": "partial",
   "theorems": [
    "Verif.Match.C107_duel_partial",
    "Verif.Match.C107_minds_partial",
    "Verif.Match.C107_rules_partial",
    "Verif.Match.C107_fails_left",
    "Verif.Match.C107_fails_silent"
   ],
   "note": "C107_duel_partial (any two programs that follow the protocol), C107_minds_partial (engines made with cshogi whose guesses are legal: the game at the board), C107_rules_partial (its result by the rules). The thread is taken to write `go ponder` at once, and the score that is read is given from outside. Fails: no byoyomi together with increments (C106_fails_increment), and after the game an engine that had a guess is left searching, with a thread waiting for it (C107_fails_left). A silent engine keeps the match waiting (C107_fails_silent)."
  },
  {
   "property": "C108",
   "status": "partial",
   "theorems": [
    "Verif.Match.C108_sitting_partial",
    "Verif.Match.C108_match_partial",
    "Verif.Match.C108_minds_partial",
    "Verif.Match.C108_kept_partial",
    "Verif.Match.C108_fails_result",
    "Verif.Match.C108_rules_partial",
    "Verif.Match.C108_kept_rules_partial",
    "Verif.Match.C108_table_partial"
   ],
   "note": "C108_sitting_partial (one game, from any engines, running or not), C108_match_partial (any number of games of programs that follow the protocol, processes not kept), C108_minds_partial (engines made with cshogi: each game is the one at a board with fresh minds), C108_kept_partial (processes kept: each game begins with the minds at the end of the one before). C108_rules_partial (the results of the match are those the rules give to these games), C108_kept_rules_partial (the same with kept processes), C108_table_partial (and so is the table of the match, C78). No pondering, options as in C98, no byoyomi together with increments (C106_fails_increment). Fails: the engines hear `gameover` without the result (C108_fails_result)."
  },
  {
   "property": "C109",
   "status": "partial",
   "theorems": [
    "Verif.Kif.C109_read",
    "Verif.Kif.C109_written",
    "Verif.Kif.C109_position",
    "Verif.Kif.C109_accepts",
    "Verif.Kif.C109_long",
    "Verif.Kif.C109_fails_twice",
    "Verif.Kif.C109_fails_piece",
    "Verif.Kif.C109_fails_error"
   ],
   "note": "C109_read (any text that tells pieces, no kind twice), C109_written and C109_position (what board_to_bod writes), C109_accepts (when it raises), C109_long (ParserException for items that are too long). Fails: a kind told twice counts with its last number (C109_fails_twice), kings and promoted pieces are accepted (C109_fails_piece), and unknown names raise ValueError instead of ParserException (C109_fails_error)."
  },
  {
   "property": "C110",
   "status": "proved",
   "theorems": [
    "Verif.C110_square",
    "Verif.C110_coordinates",
    "Verif.C110_turned",
    "Verif.C110_names",
    "Verif.C110_piece",
    "Verif.C110_symbols",
    "Verif.C110_hand",
    "Verif.C110_hand_all",
    "Verif.C110_opponent",
    "Verif.C110_turn"
   ],
   "note": "C110_square, C110_coordinates, C110_turned (squares), C110_names (names and USI moves), C110_piece, C110_symbols (pieces), C110_hand, C110_hand_all (hands), C110_opponent, C110_turn (colours). MAX_PIECES_IN_HAND bounds the hands of positions made of one set of pieces. Arguments outside the board or outside the hand pieces read outside a C++ table (C110_square)."
  },
  {
   "property": "C111",
   "status": "proved",
   "theorems": [
    "Verif.C111_square",
    "Verif.C111_hands",
    "Verif.C111_read",
    "Verif.C111_injective",
    "Verif.C111_same"
   ],
   "note": "C111_square (layout of the board), C111_hands (hands and side to move), C111_read (read as a CSA record), C111_injective and C111_same (what the text tells). The number of pieces of a kind in hand is that of one set for C111_read and C111_injective."
  },
  {
   "property": "C112",
   "status": "proved",
   "theorems": [
    "Verif.C112_number",
    "Verif.C112_fits",
    "Verif.C112_needed",
    "Verif.C112_off",
    "Verif.C112_fails_name",
    "Verif.C112_fails_inner"
   ],
   "note": "C112_number, C112_fits, C112_needed (57 planes are not enough when they are on), C112_off. Outside the statement: a name got by `from cshogi.dlshogi import FEATURES2_NUM` keeps its number, and arrays of that size are then overrun (C112_fails_name); the private switch of _cshogi does not change dlshogi.FEATURES2_NUM (C112_fails_inner)."
  }
 ]
}