# Formal model of cshogi (C++ core) in Lean 4

## Trusted base

* Lean 4.33.0 kernel, and the axioms `propext`, `Classical.choice`, `Quot.sound` (each property theorem
  depends on a subset of these; no axioms are declared here, no `sorry`, no `native_decide`, no `bv_decide`).
* The reading of the C++ text into Lean definitions. Each model definition cites the file and lines it
  models. Nothing has been compiled or run from /repo.
* The rule specification in `Verif/Spec/*`, small and meant to be read by a person who knows shogi.

## Layers

1. `Verif/Model/Types` – squares (0..80 = file*9+rank), colours, numeric piece and piece-type codes,
   hand-piece tables.
2. `Verif/Model/Move`, `Verif/Model/Hand`, `Verif/Model/Bitboard` – 32-bit moves, packed hands, the 63+18-bit
   two-word bitboards, all on `BitVec`, bit for bit.
3. `Verif/Model/Attack` – start-up tables of init.cpp and the run-time attack functions of bitboard.hpp.
4. `Verif/Model/Position` – Position/StateInfo, doMove/undoMove/doNullMove, keys, check info, pins.
5. `Verif/Model/Gen` – move generation used by `legal_moves` (LegalAll) and the legality predicates.
6. `Verif/Model/Sfen`, `Verif/Model/Hcp`, `Verif/Model/Usi`, `Verif/Model/Csa`, ... – text and bit encodings.
7. `Verif/Spec/*` – rules of shogi as coordinates and first-order statements; no bit tricks.
8. `Verif/Lemmas/*` – helper lemmas. `Verif/Props/*` – one theorem (or group) per property, with examples.

Undefined behaviour (out-of-range table index, null dereference, pop on an empty history, ...) is modelled
as a distinct outcome (`none` / `.ub`) where a property speaks about it; otherwise it is a stated precondition.

## Plan per property

| id | what is modelled | how proved |
|----|------------------|------------|
| C01 | move.hpp bit packing on BitVec 32, accessors of cshogi.h | bit-field arithmetic lemma, all fields |
| C02 | `__move16_from_psv`, `__move16_to_psv` on BitVec 16 | arithmetic on fields, both directions |
| C03 | `move16toMove` over any board | from C01 |
| C04 | `__move_rotate` on BitVec 32 | bit-field arithmetic |
| C05 | `toUSI`, `usiToMoveBody` with legality re-check | string lemma + legality predicates |
| C06 | `toCSA`, `csaToMoveBody` | string lemma + legality predicates |
| C07 | same | expected to FAIL for bad promotions / dead drops: negation witness + `_partial` |
| C08 | `__dlshogi_make_move_label` | geometry (omega) + blocking of sliders |
| C09 | packed Hand | carry-free arithmetic on fields |
| C10 | `isEqualOrSuperior` | borrow-bit analysis |
| C11 | Bitboard class, popcount, firstOne, iteration | bit extensionality, induction |
| C12 | lance tables, `rookAttack`, `bishopAttack` (Qugiy) | subtraction lemma + finite geometry tables |
| C13 | init.cpp tables | whole-table kernel evaluation lifted to the coordinate spec |
| C14 | `attackersTo*` | from C12, C13 and the board consistency invariant |
| C15 | doMove/undoMove/doNullMove on all redundant views | invariant by induction over operations |
| C16 | doMove | refinement to rule-level transition |
| C17 | undoMove after doMove | state equality, induction over nesting |
| C18 | doNullMove | expected to FAIL for two nested passes (counter not restored): witness + `_partial` |
| C19 | boardKey/handKey updates, computeBoardKey/HandKey | invariant by induction |
| C20 | getKeyAfter, bookKeyAfter | algebra over Z/2^64 and xor |
| C21 | checkersBB update | invariant by induction over legal games |
| C22 | CheckInfo, moveGivesCheck | line geometry |
| C23 | hiddenCheckers, isPinnedIllegal | line geometry |
| C24–C26 | GenerateMoves<LegalAll> and callees | soundness, completeness, Nodup against the rules spec |
| C27 | moveIsPseudoLegal<false> && pseudoLegalMoveIsLegal | expected to FAIL on malformed moves: witness + `_partial` |
| C28 | isPawnDropCheckMate, canPieceCapture | geometry + rules spec |
| C29 | doMove over LegalAll | invariant |
| C30 | doMove | counting lemma, induction over games |
| C31 | toSFEN / set(sfen) on character lists | printer/parser round trip |
| C32 | set(sfen) | expected to FAIL ("+G", "K" in hand): witness; partial statement for accepted shapes |
| C33–C36 | BitStream, Huffman tables, encoders and decoders | prefix-freeness by finite table, induction over squares |
| C37–C39 | isDraw, moveIsDraw over state chains | induction over history; C39 expected to FAIL: witness |
| C40 | nyugyoku | counting refinement |
| C41 | __rotate_sfen | expected to FAIL for ten or more pawns in hand: witness + `_partial` |
| C42 | piece_planes(_rotate) | set semantics of bitboards |
| C43 | all of mate.cpp over the modelled generators | induction on depth against game-tree spec; FAILS for depth 4 and 0: witnesses |
| C44 | relinkStateInfo over an explicit heap of records | graph isomorphism lemma |
| C45 | toCSAPos, parse_position, to_sfen | printer/parser round trip |
| C46 | parse_position P+/P- lines | expected to FAIL (digits swapped): witness |
| C47 | MoveList capacity | FAILS for more pieces than one set: witness; with one set, a weighing argument over all 128 hand contents gives exactly 593 |
| C48 | canPromote bit mask | finite, complete case split |
| C49 | encoders on positions without kings | FAILS: general theorem over all such positions |
| C51 | history.clear() and the exception of set_position, explicit heap | FAILS: general theorem; partial for an empty history |
| C52–C54 | parse_csa, Exporter of CSA.py | writer/reader round trip by induction on the game; C54 FAILS before the first move |
| C55 | the whole of mateMoveIn1Ply (17 groups of checks) | each group sound: the check cannot be taken, blocked or escaped |
| C56 | same | FAILS: witness; mates by a check from the next square or by a knight are always found, so are drops from any distance and line pieces moved to two squares away, under stated conditions: partial |
| C57 | the buffer of 91 moves of the mate search | FAILS: witness; partial for trees within the bound |
| C58 | is_mate, mate_move, every argument | induction over the search: each doMove is undone |
| C59, C60, C62 | dfpn.cpp without time control | induction on nested calls with an invariant of the table: every proved entry stands for forced mates in all positions with its key and at least its hand; C59 FAILS: witness |
| C61 | same | induction on nested calls, no hypothesis on keys |
| C63 | `_dlshogi_make_input_features`, all cells of both arrays | set semantics of bitboards, positions of planes are distinct |
| C64 | its declaration planes | FAILS: general theorems and witnesses; partial |
| C65–C67 | Parser and Exporter of KIF.py | writer/reader round trip by induction on the game; C66 FAILS for starts given as boards, C67 for handicap games and declarations: general theorems |
| C68–C70 | Parser and Exporter of KI2.py | what the writer says picks out one of the candidates, induction on the game; C68 FAILS with a rival and a drop, with three rivals and with two moves in a line, C70 for illegal actions and moves |
| C71, C72 | movetext of PGN.py | the words of the text, by induction on the moves and the line so far; C71 FAILS for promoted knights and for empty games, C72 by one character |
| C73 | pieces, pieces_in_hand, set_pieces, turn | the tables built from scratch (Raw), then the same SFEN reader as C31; `C73_fails_pop` shows what the kept history does |
| C74 | is_ok | counting bits square by square; invariant over legal games, at most two checkers after any legal move |
| C75 | set_position | words of the text, the SFEN reader does not see a blank at the end, induction over the moves; FAILS for wrong promotions and for the word behind `startpos` |
| C76 | reset and step of shogi_env.pyx | induction over the line with an invariant of the counter; FAILS: witness; partial for repetitions of one kind |
| C77 | the loop and the verdict of `main` in cli.py | refinement to an inductive definition of how games end, induction on the answers; FAILS: six witnesses |
| C78 | its counters | induction on the results |
| C79 | its CSA end words | case split; FAILS: witness |
| C80 | pseudo_legal_moves against is_pseudo_legal and pseudo_legal_move_is_legal | the specifications of C24 to C27; FAILS in check: witness |
| C81 | the line of Engine.position, read by set_position | words of the line, then C75; FAILS for Board.sfen(): general |
| C82 | the line of Engine.go; its answer | words of the line; induction on the lines; FAILS: increments beside byoyomi, end of output (general) |
| C83 | InfoListener: pv, score and info of the last line for the move played | greedy matching of words, induction on the numbers; FAILS: mates of unknown length (general), two witnesses |
| C84 | score and comment of the match runner, read back by the CSA parser | greedy matching, induction on the variation, C27, C54 |
| C85 | all of mate.cpp, the generator of checks is complete | exactness of both move lists, induction on depth; FAILS when a reply gives check: witness |
| C86 | the rest of CSA.py, `Parser.parse_str`, `var_info`, `comments` | states of the parser line by line, splitting at `\n/\n`; FAILS for remarks, non-ASCII comments, some comments, position texts and the comma separator |
| C87 | `Board.to_bod`, `board_to_bod`, `move_to_bod` | an independent reader of diagrams returns the position; the last line from the KI2 text; FAILS for most recaptures and after a pass |
| C88 | the server's comment lines in parse_csa | the reader's state after any record so far, then one line; FAILS: general theorems; partial |
| C89 | `to_svg`, `_repr_svg_` | a reader of the picture finds pieces, hands and marks; FAILS: general theorems; partial |
| C90 | `ShogiVecEnv.step`, `reset` | each game against a game played alone, induction over calls; FAILS: general theorems; partial |
| C91 | `Elo` and the statistics line | lists of results; rating curve, variance and normal distribution over the reals; FAILS: general and concrete; partial |
| C92 | move-list iterators under push and pop | reading: induction on the calls; counting: induction on the depth with C17, C24–C26 |
| C93 | `MultiPVListener` | greedy matching of words, dictionary and sorting by induction; FAILS: witnesses; partial |
| C94 | web page of a match | simulation with the match runner (C77), entries read against the KIF text of C52; FAILS: general and concrete; partial |
| C95 | CSA records on the web page | the reader of C86 composed with the page, induction over the moves; FAILS: general theorems; partial |
| C96 | history of a board | invariant over all operation sequences: stack of standing moves; PROVED |
| C97 | ways of pushing a move | refinement: five readers, one move; game by induction; PARTIAL |
| C98 | session with a USI engine | refinement by induction on the calls: client and process against a player; PARTIAL |
| C99 | remarks in KIF records | round trip by induction on the moves, words of the engine read by a separate reader; PARTIAL |
| C100 | openings in matches | reading of the file, counting of games by induction on the file, invariant over the opening and then C77; PARTIAL |
| C101 | PGN files | separate reader of PGN, induction on the games, counting by tags against C78; PARTIAL |
| C102 | a person on the web page | interleavings of the accesses to the shared input, invariant on what can be read, induction on the execution; PARTIAL |
| C103 | leagues and arguments of the command line | the games as a list, table and openings read off the list, induction on the rounds; PARTIAL |
| C104 | CSA records of matches | the loop of the match again with lines, listener and exporter; simulation by induction on the turns, then the file round trip of C86; PARTIAL |
| C105 | Web game kept and shown again | the loop of the page with listener and exporter, simulated by induction on the turns; then C86 and C95; PARTIAL |
| C106 | Two engines in a match | closed loop of runner, protocol and two state machines; simulation by induction on the turns, with C81, C98 and C100; PARTIAL |
| C107 | Engines that ponder | closed loop with pending answers; invariant on variables and threads, simulation by induction on the turns; PARTIAL |
| C108 | Games of a match | sessions around the closed loop; simulation by induction on the turns and on the games, exact states of the engines at the end of a game; PARTIAL |
| C109 | Pieces in hand as text | reader against a separate reader by induction on the items; writer/reader round trip; FAILS for kinds told twice, kings, promoted pieces and the kind of exception |
| C110 | Squares, pieces and colours taken apart | tables evaluated over their whole domain, lifted to all positions through C73 (lists of pieces), C05 (USI texts) and C16 (push) |
| C111 | Printing a board | columns of the text by induction on the cells; round trip through the CSA reader of C45 |
| C112 | Switch for the declaration planes | invariant on the state of three modules by induction on the calls, with C63 for what is written; FAILS for imported names |
| C50 | decoders on arbitrary bytes | FAILS: witnesses; partial statement for returning calls |

Not modelled: the other df-pn search (osl_dfpn.cpp), files and encodings, the pipes to engine processes, the HTML and JavaScript of the web page,
what Cython does with arguments of a wrong type. The sections below name what is left out of each part.

## Where the code and a property disagree

* **C07** The parsers rely on `is_legal`, so they return the moves of C27 that are not in `legal_moves`, and CSA text can even
  drop a promoted pawn (`C07_fails`). Strings of length 0 or 2 are read beyond their terminator and a king drop indexes the hand
  masks with 7 (`C07_fails_reads`). `C07_usi_partial` and `C07_csa_partial` cover all other strings, and `C07_usi_exact` says
  exactly which moves `move_from_usi` returns.
* **C18** `pop_pass` does not restore `continuousCheck` of the side that got the turn, which `push_pass` had set to 0.
  After an ordinary move without check that counter is 0 anyway; with two nested passes the other side's counter is
  lost. `C18_counterexample` is a concrete run; `C18_nested_partial` and `C18_nested_up_to_counters_partial` say what
  does hold.
* **C27** `is_legal` (moveIsPseudoLegal<false> and pseudoLegalMoveIsLegal) tests neither the promotion zone, nor that the
  piece can promote, nor dead squares. `C27_fails`: it accepts P7g-7f with promotion in the start position.
  `C27_is_legal_partial` and `C27_listed_partial` say what does hold. Nor does it look at the captured piece in the integer:
  every capture with that field left empty is accepted, and pushing it leaves two pieces on one square of the bitboards
  (`C27_fails_capture`). Drops of promoted pieces are accepted and pushed (`C27_fails_promoted_drop`). `C27_any_move`,
  `C27_any_drop` and `C27_loose` say exactly what is accepted.
* **C32** `set_sfen` writes outside `byTypeBB_`/`byColorBB_` for `+G`, `+g`, `+k`, reads outside the hand tables for a king in
  hand, overflows `int` for long counts, and puts two pieces on one square when nine or more slashes let the writing point
  wrap (`C32_fails`). `C32_safe_partial` and `C32_views_partial` cover every text without those features.
* **C37** Because of C18, popped passes can lose a perpetual-check counter, and `is_draw` then calls a perpetual check a draw
  (`C37_fails`). `C37_verdict_partial` and `C37_passes_partial` cover the other games. Both assume that the 64-bit hashes of the
  positions compared differ when the positions do; the code compares hashes only.
* **C39** `move_is_draw` uses the perpetual-check counters from before the move, so a perpetual check that repeats the first
  recorded position is called a draw (`C39_fails`), and it never reports superior or inferior positions (`C39_fails_hands`).
  `C39_agree_partial` covers the rest.
* **C41** `rotate_sfen` skips a digit 1 or 0 in front of a hand letter, so counts of ten or more lose their first digit
  (`C41_fails`: `17P` becomes `7p`). `C41_rotate_partial` and `C41_twice_partial` cover hands with at most nine of a kind.
* **C46** `P+`/`P-` lines are read with the file digit as rank and the rank digit as column from the left: `P+76FU` puts the pawn
  on 4g (`C46_fails`, every square but 5-5). A block with only such lines reads uninitialised cells, and `00AL` is looked up past
  the end of a table (`C46_fails_reads`).
* **C47** `set_sfen` does not limit the material. With a third rook 599 legal moves exist and the buffer of 594 is overrun
  (`C47_fails`). `C47_capacity_partial` proves the bound 593 for positions with at most the pieces of one set; `C47_tight` reaches it.
* **C49** A position without both kings needs one or two bits more than 256 (the king's square is coded as 81 and no board
  square is skipped), so `to_hcp` and `to_psfen` touch byte 32. `C49_fails` holds for every such position.
* **C50** `set_hcp`/`set_psfen` do not check the two king squares (7 bits, up to 127), do not check for the end of the data
  inside a code (`C50_fails`), and let the hand counters overflow (`C50_overflow`). `C50_views_partial` says what holds.

* **C51** `set_position` clears the history, which holds the record of the current state, before it looks at its text. When it then
  raises, `pos.st_` points to freed memory (`C51_fails`, every board with a move on its history).

* **C54** A score comment `'** n` before the first move writes to element -1 of an empty vector (`C54_fails`), or raises for a number
  out of range. `C54_stored_partial` covers comments after a move.

* **C55** `mate_move_in_1ply` calls a promoted pawn, lance, knight or silver a gold in the move it returns when that piece gives a
  discovered or double check (`C55_fails`): the move is not in `legal_moves`, and pushing it leaves the board views inconsistent. It
  is not guarded against being called in check, where its answer may be illegal (`C55_fails_in_check`). `C55_mate1_partial`: out
  of check the answer always stands for a legal move that mates, with the right 16-bit form.
* **C56** Mates by the piece played, from a square with none between it and the king, are always found (`C56_contact_partial`).
  Not every mate is found: distant checks are given up when the opponent holds anything but pawns, even if it cannot be dropped in
  between (`C56_fails` by a move, `C56_fails_drop` by a drop), and when four or more squares next to the king are free, although a
  dragon two squares away takes four (`C56_fails_slide`). Away from these causes every mating drop is found from any distance
  (`C56_drop_partial`) and every mating check by a line piece that arrives two squares away and uncovers nothing
  (`C56_slide_partial`). The latter also assumes that the opponent has no two pawns on a file: a captured pawn is taken to free its
  file only in such positions.
* **C43** The search does not try the opponent's pointless-looking refusals to promote (pawn, bishop, rook, and lance on the second
  rank) as answers to a check, though they are legal. In `C43_fails` one of them saves the opponent from a pawn-drop mate, so
  `is_mate(4)` is true without a forced mate. `is_mate(0)`
  is true in any position that is in check (`C43_fails_zero` has a legal move). `C43_is_mate_partial` and `C43_mate_move_partial`
  prove the search sound for the game tree in which those refusals are left out, at every depth; `C43_two_plies` and
  `C43_three_plies` prove the real claim for depths 2 and 3, where refusals never help.
* **C57** The search keeps moves in a buffer of 91. `C57_fails` is a position from one set of pieces with 92 legal answers to a
  check; the last one is written past the end. `C57_*_partial`: with at most 91 everywhere in the tree the calls return.

* **C59** `DfPn` leaves out the same replies. In `C59_fails` `search_andnode` answers true although one of them ends the attack
  at once: White is left without any check. `C59_*_partial`, `C60_get_move_partial` and `C62_get_pv_wins_partial` hold for the game
  without those refusals.

* **C64** With `use_nyugyoku_features(True)`, `dlshogi.make_input_features` compares signed counts with unsigned bounds, so a side
  with more than ten pieces in the far ranks, or more points than needed, gets no plane at all instead of the plane for "none missing"
  (`C64_fails_count`, `C64_fails_points`, `C64_fails_rich`); and only the first 57 planes are cleared, so an array used again keeps
  marks of earlier positions (`C64_fails_stale`). `C64_declaration_partial` covers the rest.

* **C66** `KIF.Exporter.header` accepts a board as the start and writes a diagram, but the parser does not read diagrams: for every
  board the record says the game began from the starting position (`C66_fails_board`, `C66_fails`). The counts of pieces in hand are
  compared (`==`) instead of stored. `C66_named_partial`: named handicaps are read back.
* **C67** `KIF.Exporter.end` takes it that Black makes the moves with odd numbers, so in every handicap game the side that resigned is
  written and read as the winner (`C67_fails_handicap`). A win by declaration is written as a word that the parser does not know: no
  winner, no end, and the seconds are lost (`C67_fails_declaration`). `C67_even_partial` covers games without handicap. (An impasse is
  read back as `%SENNICHITE`, too.)

* **C68** `KI2.Parser` puts drops among the candidates with an origin that counts as a square of the ninth file, so "from the left" can
  pick the drop although the exporter meant a move (`C68_fails_drop`). With three candidates the exporter may leave out the direction
  and the parser raises an exception (`C68_fails_three`). After the first move of a line the parser continues at an offset relative to
  the rest of the line, so two moves in one line are not read (`C68_fails_line`). `C68_plain_partial` covers every other single move:
  at most one rival, and no drop beside it.
* **C69** holds as far as C68 does (`C69_record_partial`).
* **C70** `KI2.Exporter.end` writes the winner as if the side not to move won by every illegal action, and as if it lost by every
  illegal move (`C70_fails_action`, `C70_fails_move`). `C70_result_partial` covers the other reasons. The number of moves in that line
  is 0 for an illegal move and two too many for an impasse.

* **C71** `PGN.move_to_san` calls a promoted knight `+K` (`C71_fails_knight`; the origin still tells it from the king), and
  `Exporter.movetext` leaves out the result of a game without moves (`C71_fails_empty`). `C71_move_partial`, `C71_words_partial`:
  everything else is written as it should be; `C71_determined`: the text determines the game.
* **C72** `movetext` compares the length of a line without the blank it adds, so lines can have 81 characters (`C72_fails`), but not more
  (`C72_lines_partial`).
* **C73** assigning `turn` leaves the history as it is; `pop` then undoes the move for the wrong side and the piece comes back in the
  opponent's colour (`C73_fails_pop`).
* **C74** `is_ok` does not look at the table of golds, at the stored king squares or at which pieces give check (`C74_blind`).
* **C75** `set_position` passes over the word behind `startpos` without looking at it, so `startpos 7g7f` is the start position
  (`C75_fails_word`), and it takes promotions outside the zone (`C75_fails_promotion`, `C75_fails_loose`, from C27).

* **C76** `ShogiEnv.step` asks `is_draw`, which looks at the moves since the position came up last, not since it came up first. A chase
  that began late is judged as a perpetual check although the whole repetition was not one (`C76_fails`). `C76_step_partial` covers
  repetitions of one kind throughout (`Steady`).
* **C77** `cli.main` does not count the position from which the game starts, so its fourth occurrence goes unnoticed (`C77_fails`). The
  move limit is looked at first in the verdict: a perpetual check completed by the last ply, and a mate announced with it, are called
  draws (`C77_fails_limit`, `C77_fails_mate`). A mate announced with a move that cannot be read makes `board.push(0)`
  (`C77_fails_garbage`). The word `win` is believed (`C77_fails_declare`). The byoyomi is told to the engines but not added when the
  clock is judged (`C77_fails_byoyomi`). `C77_result_partial` covers the other games.
* **C79** the end word for a lost perpetual check is written without `%` (`C79_fails`); `C79_text_partial` covers the other endings.
* **C80** in check `pseudo_legal_moves` lists the king's moves to covered squares, which `is_pseudo_legal` denies (`C80_fails`). Out of
  check the two agree (`C80_quiet_partial`), and with `pseudo_legal_move_is_legal` they always agree (`C80_check_partial`).
* **C81** `Engine.position(sfen=board.sfen())` sends a line without the word `sfen`, which `set_position` (and the protocol) refuses (`C81_fails`).
* **C82** with `byoyomi` the increments are dropped (`C82_fails_increment`); at the end of the engine's output `go` compares a text
  with `b''` and waits for ever (`C82_fails_eof`).
* **C83** `score mate +` and `score mate -` always make `InfoListener.score` raise (`C83_fails_mate`), as does a line that begins with
  `info pv` (`C83_fails_bare`); words without a number, such as `lowerbound`, raise or swallow what follows (`C83_fails_bound`).
* **C84** on a mate in 0 `usi_info_to_score` and `InfoListener.score` differ (`C84_differs`). The comment follows a wrong promotion as
  `is_legal` does and writes it into the record (`C84_fails_promotion`).
* **C85** at depth 2, and at the end of every deeper line, a reply that gives check ends the search without success, even when the answer to
  that check mates (`C85_fails`: `is_mate(2)` is false, `is_mate(4)` true).
* **C86** a comment given with a move is stored with the move only if it begins with `** `; any other goes to the comment of the game
  (`C86_fails_remark`). With the separator `,` it is stored with the move, but not if there is a time as well, and then the time is lost too
  (`C86_fails_comma`). `Parser.comments` raises for text outside ASCII (`C86_fails_ascii`). `Exporter.info` writes a comment beginning with an
  apostrophe without a newline, so that it swallows the next line (`C86_fails_comment`), and raises for any position text but that of the
  starting position (`C86_fails_text`).
* **C87** `move_to_bod` takes for granted that "同" is followed by a space. When the KI2 text goes on without one, the first character of the
  piece's name is left out (`C87_fails_same`): "同成銀" and "同　銀" both become "同銀" (`C87_fails_ambiguous`). After `push_pass` `to_bod` takes the
  pass back as a move (`C87_fails_pass`), and a move to 1b after a pass is written with "同", because the integer 129 of a pass has the
  destination 1 (`C87_fails_null`).
* **C88** Of a server's summary only three reasons are looked at, and only an illegal move sets a loser; a game lost by a broken
  connection (`abnormal`) or by perpetual check (`oute_sennichite`) is reported as a draw, whoever the summary names
  (`C88_fails_winner`). For an illegal move the side to move after the recorded moves is the loser, which is wrong if the record
  contains the illegal move (`C88_fails_side`). A rating is looked for after the first colon behind the name
  (`C88_fails_rating`). `C88_effect` says what a summary changes.
* **C89** A picture of the board does not tell the side to move (`C89_fails_turn`). After a pass a notebook shows 1b coloured, because the
  integer of the null move is taken apart like a move (`C89_fails_pass`).
* **C90** `ShogiVecEnv.step` plays the games one after the other: an illegal move raises after the games before it have been played on, and
  their rewards are lost (`C90_fails_refused`, `C90_fails_long`). Fewer moves than games are accepted (`C90_fails_short`).

* **C91** `Elo.los` divides by zero if every game was drawn (`C91_fails_los`); there is no margin after one win each (`C91_fails_margin`); the
  match runner prints the share of draws itself in front of a percent sign, a hundredth of the percentage (`C91_fails_draws`).
* **C93** one line that cannot be taken apart makes `MultiPVListener.info` raise for all variations (`C93_fails_mate`, `C93_fails_empty`); a
  message that contains the words is taken for a variation (`C93_fails_string`).

* **C94** with a clock the web match reads the name `inc_time`, which does not exist, at the first reply (`C94_fails_clock`); after the last
  move the page asks the other side to move (`C94_fails_asked`); repetitions of the first position and declarations are shown as in C77
  (`C94_fails_repetition`, `C94_fails_declare`).
* **C95** a record that White begins is shown with every sign wrong (`C95_fails_white`); unknown endings (also `%+ILLEGAL_ACTION` and
  `%-ILLEGAL_ACTION`, which cshogi.cli writes), records without a move and comments without a number raise an exception (`C95_fails_end`,
  `C95_fails_empty`, `C95_fails_words`); the text for a declared win is misspelt (`C95_fails_kachi`); variations never write 同
  (`C95_fails_same`).
- **C97** (`C97_fails_zero`, `C97_fails_number`, `C97_fails_gold`): `push_move16` and `push_psv` play whatever number they are given. For 0 this is undefined behaviour, and the number of an illegal move is played. `push_usi` reads `4i5h+` in the start position, a promotion of a gold, and playing it is undefined behaviour.
- **C98** (`C98_fails_ponder`, `C98_fails_bool`, `C98_fails_name`, `C98_fails_eof`): `go(ponder=True)` waits for a `bestmove` which an engine writes only after `stop` or `ponderhit`, so it never returns. `setoption(name, True)` sends `True` and not `true`. `connect` decodes the engine's name as ASCII and raises for other names. The tests for the end of the file compare `bytes` with `''`, so instead of raising `EOFError` the methods read empty lines for ever.
- **C99** (`C99_fails_mate`, `C99_fails_time`, `C99_fails_string`, `C99_fails_handicap`): `KIF.Exporter.info` takes a mate without a sign for a mate of the other side and drops the first digit of its length. A time from 59.95 seconds up is written `00:60.0`. A line like `info string time is short` makes it raise. It takes the side to move from the number of the move, so that in games with a handicap every value has the wrong sign.
- **C100** (`C100_fails_zero`, `C100_fails_illegal`, `C100_fails_words`, `C100_fails_empty`): the test of `opening_moves` comes after the move, so that 0 still plays one. A move of an opening that breaks the rules is passed over without a word; the match goes on from the position before it, while the engines are told of it and cannot set the position up. The first fifteen characters of a line are dropped unread, so that a line in the form of the protocol, `position startpos moves ...`, leaves the words `os` and `moves` among the moves. With an empty file the match ends with a division by zero.
- **C101** (`C101_fails_name`, `C101_fails_empty`): `PGN.Exporter.tag_pair` does not escape quotes and backslashes. An engine that calls itself `Test "A"` gives lines that no PGN reader takes; a backslash is not part of the name that is read.
- **C102** (`C102_fails_race`, `C102_fails_text`, `C102_fails_command`, `C102_fails_name`): `/move` stores the move and the number in two steps and `Human.go` reads them in two steps, so the number of one request and the text of another can be combined. A request without `move` ends the match process with an exception. Because `move_from_usi` ignores what follows a drop, `P*5e` with a new line and `quit` is taken as a move, and the engine is told the line `quit`. `/update` asks by kind of player and `/move` by the name `Human`.
- **C103** (`C103_fails_odd`, `C103_fails_values`, `C103_fails_zero`, `C103_fails_options`): a league with `--games 5` plays 6 games per pair and prints `6 of 5 games finished.`; `--byoyomi 1000 2000` in a league gives all engines 1000, three values in a match of two raise; `games=0` raises `UnboundLocalError`; option values with commas are cut.
- **C104** (`C104_fails_ending`, `C104_fails_perpetual`, `C104_fails_ponder`, `C104_fails_variation`, `C104_fails_name`): after a perpetual check of the side to move cli.py writes `ILLEGAL_MOVE` without `%`; `Parser.parse_file` raises `Invalid line` for the whole file, with all other games in it. With `--ponder` the listener has heard the next `position` before the score is read, so that there is no score (or that of the search in the opponent's time), no comment, and neither `resign` nor `mate_win` has an effect. If `bestmove` is not the first move of the last `pv`, its rest is written behind a move it does not belong to. Two games of the same players begun in the same second are written to the same file.
- **C105** (`C105_fails_seconds`, `C105_fails_variation`, `C105_fails_declare`, `C105_fails_opening`): app.py shows `math.ceil` of the seconds (162) and hands `int` of them to the exporter (156), so that the replay shows one second less for every turn that is no whole number of seconds. The replay notates variations in another way than the live page. After `%KACHI` the replay does not say who has won. A game that ends before the first move (resigned at once) and a game ended by a perpetual check (`ILLEGAL_MOVE` without `%`, 221) are written, but the file cannot be opened.
- **C106** (`C106_fails_increment`, `C106_fails_silent`, `C106_fails_stale`): an engine with byoyomi is not told the increments. The time is only looked at after an answer: an engine that does not answer, or whose process has ended, keeps the match waiting for ever. Lines left over from an earlier search are not thrown away: one `bestmove` too many is taken for the answer in the next turn.
- **C107** (`C107_fails_left`): if the last answer of a game came with a move to ponder on, the engine is told to ponder on it although the game is over, and it is never told to stop; a thread keeps waiting for its answer. With `--keep_process` that thread and the next game read from the same process.
- **C108** (`C108_fails_result`): `Engine.gameover` is called without a result, so the engines hear `gameover` alone, whoever has won. (The protocol has `gameover win`, `lose` or `draw`.)
- **C109** (`C109_fails_twice`, `C109_fails_piece`, `C109_fails_error`): `parse_pieces_in_hand` does not add up a kind that is told twice, takes kings and promoted pieces as pieces in hand, and raises `ValueError` for names that it does not know, although `ParserException` is documented. (`KIF.Parser.parse_str` does not use what it returns: C66.)
- **C112** (`C112_fails_name`, `C112_fails_inner`): a program with `from cshogi.dlshogi import FEATURES2_NUM`, which is the import that the module offers in `__all__`, keeps 57 after `use_nyugyoku_features(True)`; `make_input_features` then writes behind arrays of that size, which nothing checks. The private switch in `_cshogi` leaves `dlshogi.FEATURES2_NUM` behind.

## Mate in one

`Model/Mate1` covers all of `Position::mateMoveIn1Ply<US, true>` (position.cpp:1289-2803) and its helpers. `C55_*` rests on one
lemma per group in `Lemmas/Mate*`; each shows that the checking piece cannot be captured by a piece that may move, that nothing can
be put in between, and that every neighbouring square of the king is attacked or occupied by its own side.

## Matches and the learning environment

`Model/Env` covers `reset` and `step` of shogi_env.pyx (33-123); the dictionary of counts is a function from keys. `Model/Match`
covers one game of `main` in cli.py (234-456) without openings, pondering, display and files, and the counting (459-506). The engines are
represented by what they answer: the word after `bestmove`, the score of the last info line and the milliseconds used; so the theorems
speak about all engines. `Spec/Match` says how a game is decided (`Ends`); it is written from the rules of the game and the documentation of
`main`, with the move limit, the clock and the resignation threshold as parameters.

## Mate search

`Model/CheckGen` covers the generator of checking moves (generateMoves.cpp:1648-2135) with its tables (init.cpp:325-389) and
`checkMoveIsEvasion` (position.cpp:318-346). `Lemmas/CheckMoves` proves that every move it lists is pseudo-legal, gives check, is no
pawn-drop mate and does not expose the own king along a pin, and that `checkMoveIsEvasion` decides whether it answers a check.

`Lemmas/CheckAll*` prove the converse: every legal move that gives check is listed. `Lemmas/MateKeen` and `Lemmas/MateFind` show that
the search tries exactly the legal checks and exactly the replies that decline no promotion, which makes its answer exact (C85).

`Model/MateSearch` covers `MovePicker` and all five functions of mate.cpp. The C++ recursion counts `depth` down by two and, for
odd or negative depths, is only stopped by running out of moves; the model takes a separate `fuel`, and theorems ask for enough of it.
`none` stands for a buffer overrun or for spent fuel. Every function also returns the position, so that "the board is put back" (C58)
is a statement about the model and not built into it. `Spec/Mate` is the game tree, with repetition verdicts as a parameter.

## Df-pn search

`Model/Dfpn` covers dfpn.cpp and dfpn.h: the table with its look-up by key, hand and ply, the searches of two and three plies at new
nodes, the rounds of `dfpn_inner`, `dfpn`, `dfpn_andnode`, `dfpn_move`, `get_pv` and the limits of depth, nodes and draw ply. The flag
`stop` is an arbitrary function of the number of nodes searched. `none` stands for a buffer overrun (C57) or spent fuel; the theorems
are about searches that end. Proof numbers are integers without overflow.

The invariant (`TableOK` in `Lemmas/DfpnTable`, `Proved` in `Lemmas/DfpnBase`): an entry with proof number 0 stands for a forced mate in
every position of the search with its board key in which the attacker holds at least the hand of the entry. That rests on
`Lemmas/HandDom`: a forced mate stays one if the attacker holds more and the defender less, and the material of a game is constant.

Hypotheses that are not about legality: `Clean` (Verif/Lemmas/DfpnLine.lean). The code compares 64-bit keys only, so a collision makes
the answer wrong; and it treats repetitions as final although the table does not record how a position came about.
`clean_of_list` checks `Clean` on a board; `Props/DfpnCases` does so for the two boards used as examples.

Read but not stated as a property: at an AND node searched first (the root of `search_andnode`), the hand kept for a refuted node can
be computed by subtracting a piece that is not there (`refuteHand`, dfpn.cpp:406-425). The entry then serves no other hand and the
answer is not affected.

## Input planes of dlshogi

`Model/Planes` covers `_dlshogi_make_input_features` (cshogi.h:348-462). The arrays are functions from cells to integers before and
after; values other than 0 and 1 do not arise. With more pieces in hand than one set has, planes spill into the next kind; C63 asks
for the pieces of one set (`InSet`).

## KIF records

`Model/Kif` covers `Parser` and `Exporter` of cshogi/KIF.py with `move_to_kif` and `board_to_bod`; the regular expressions are written
out as readers (`readBody`, `readClock`, `resultTail`). Not modelled: dates, files and encodings (`cp932` cannot hold every name),
`parse_file`, fractions of seconds (`Exporter.info` is in C99), digits other than ASCII in `\d`. `Spec/Kif` lists which pieces each handicap leaves
out. C65–C67 ask that the names have no line breaks and do not end with an ideographic space, which the parser cuts off.

## Board diagrams

`Model/Bod` has `move_to_bod` and `to_bod`; the lines of the diagram are in `Model/Kif`. A hand of more than 18 pieces of a kind, for which the
table of numbers ends, is excluded by the hypotheses. `Spec/Bod` reads a diagram without looking at how it was written.

## Drawings

`Model/Svg` has `to_svg` and `_repr_svg_`: the elements of the document with their coordinates as rational numbers. Not modelled: the
lines of the board, the root element, fonts, the shapes inside the definitions, rounding of the column's coordinates (the page leaves
two units of space at the bottom and eight at the top). `Spec/Svg` looks at a picture: which square something is in is told by the
coordinates written in the picture. A character is taken as a square as high as its font size.

## Several environments

`Model/VecEnv` has `ShogiVecEnv`; `render` is not modelled.

## Statistics

`Model/Elo` has the class `Elo` and the line of the match runner over exact real numbers: rounding and overflow of floating-point numbers
are not modelled, `math.erf` is the error function. Exceptions of divisions, logarithms and roots are. `Spec/Elo` starts from the list of
results.

## Move lists

`Model/MoveIter` has the iterators behind `legal_moves` and `pseudo_legal_moves`, and the usual recursive count of games. The list is a
value: `MoveList` copies the moves into its own array when it is made.

## The web page

`Model/Web` has the function `match` of cshogi/web/app.py and the side that `/update` asks. The players are the list of their replies with
the last line of information and the seconds used. Starting the engines, the processes and the HTML page are not modelled.

## CSA records on the web page

`Model/Replay` has the branch of `run` in cshogi/web/app.py that shows a CSA file: the first game of the file, its moves, times and comments,
and the table of endings in cshogi/CSA.py. A move that is not legal, a word whose first character is no sign, and a text that is no number
raise; they are the outcome `error`. Reading the file and the HTML page are not modelled.

## The history of a board

`Model/Query` and `Model/History` have `history`, `peek`, the value of `pop` and `move_number`. A pass stands in the history as the null move
(129). `pop` on an empty history or on a pass, and `pop_pass` on a move, are undefined behaviour in the code and no operation of the model.

## The ways of pushing a move

`Model/Push` has `push_usi`, `push_csa`, `push_move16` and `push_psv` of the Python class. `Spec/Push` writes the two 16-bit numbers of a move by
arithmetic on its squares; the texts are those of `Spec/Usi`. The encoding of Python strings to ASCII (an exception for other characters) and the
overflow check of `unsigned short` arguments are Cython's and are not modelled.

## A session with an engine

`Model/UsiSession` has the methods of `Engine` as one function from a call to what comes of it. The process is any function from the line it hears
to the lines it writes, with a state. `Spec/UsiSession` reads commands by splitting the line at blanks, and describes an engine that keeps to the
protocol. Not modelled: the encodings of the lines (`ascii`, `shift-jis` and the locale's, which may raise for some texts), listeners, the
timing of the process (it is taken to have written its answer when the client reads), and `stderr`.

## Remarks in KIF records

`Model/KifInfo` has `Exporter.info` and records with remarks. `Spec/KifRemark` says what an engine can tell, reads a remark with a separate reader,
and says what a remark has to tell. The time in seconds is a floating-point number in the code; here it is any way of rounding to the nearest tenth.
Not modelled: negative times, and the forms of integers with underscores or blanks that Python's `int` takes.

## Openings in matches

`Model/Opening` has the reading of the file, the choice of the opening of a game and the moves played from it. `Spec/Opening` has the form of a line and
the cut. The shuffling is any permutation. Not modelled: indices below 0, the default of the limit, and the display.

## PGN files

`Model/PgnFile` has `tag_pair` and what the match runner appends for each game. `Spec/PgnFile` reads such files: lines, tags with quoted values, games.
The date is an input, with a year of four digits.

## A person on the web page

`Model/Human` has the accesses of the server and of `Human.go` to the shared dictionary as separate steps; an execution is any order of them.
Trusted: `dict(proxy)` reads the values one by one in the order of the keys, `wsgiref` serves one request at a time.

## Leagues

`Model/League` has the settings of the two sides, the rounds and the table of a league and the reader of options. The results of the games are inputs; that
the games themselves are right is C77 and C78. `argparse` is left out: the arguments are given as values.

## CSA records of matches

`Model/MatchCsa` has the loop of `Model/Match` once more, with the lines of the engines, the listener (two last lines) and the calls of the exporter. The time is
given in microseconds; `math.ceil` and `int` are exact on it (the code has a `float` of seconds). Pondering is only in `ponderHeard`, which says what the
listener has heard when the score is read. The games begin at the board after `reset`, with a legal opening. `Clean` asks of the turns: a line `info` in the form of C83/C84
right before `bestmove` or none at all, scores in 32 bits, a variation that begins with the move, seconds in 32 bits.

## The CSA file of a game on the web page

`Model/WebCsa` has the loop of `Model/Web` once more, with the listener (emptied before each `go`), the time in microseconds and the calls of the exporter. A person at the page has no listener: nothing is heard in
their turn. The game has no clock (`time=None`; with a clock the first round raises, C94). `Clean` is that of C104. Left out as in C104: the `float` of seconds.

## Two engines in a match

`Model/Duel` closes the loop: the runner of `Model/Match` with `usi_moves`, the listener and two processes as in `Model/UsiSession`. Only the time that each turn takes comes
from outside. `Spec/Duel` has two players at a board (`overBoard`). An engine made with cshogi (`engineOf`) hands the text behind `position` to `Board.set_position`. Left out: pondering (see C107), starting the processes (C98), `gameover` and `quit`.

## Pondering

`Model/Ponder` is the loop of `Model/Duel` with `ponder=True`: `bestmove`, `pondermove`, `pre_pondermove`, `feature`, `pre_feature`, and the futures with their results. A future reads from its engine when its
result is asked for; its thread writes `go ponder` at once (in the program the write may come a little later). Two readers of one process, and a job that has to wait for a worker, are the outcome `never`; the theorems show that this does not
happen during a game. What the listener has heard depends on the threads (C104_fails_ponder), so the score of a turn comes from outside. `Spec/Ponder` has engines that ponder (`Ponderer`) and players at a board
who muse in the opponent's time (`ponderBoard`).

## The games of a match

`Model/Series` is the loop of `main` over the games: colours and settings (`sideSettings` of `Model/League`), `connect` if there is no process, the options, `isready`, the opening, `usinewgame`, the loop of `Model/Duel` (here with the
engines at its end: `seatedDuel`, which gives the same game by `seatedDuel_result`), `gameover` and `quit`. A game whose turns run out is not over, and ends the series. What the listener heard before a game comes
from outside: the result does not depend on it. Left out are pondering (C107 has one game of it), `names`, `callback`, display, files, and the counting (C78, C103).
`Props/SeriesRules` puts this together with C100 and C78: the results and the table of the match against the rules, game by game.

## Pieces in hand as text

`Model/HandText` is `parse_pieces_in_hand` of cshogi/KIF.py and cshogi/KI2.py, which have the same text. The dictionary is a function, and the two exceptions are told
apart. `Spec/HandText` says which pieces a text tells with the reader of `Spec/Bod`, where one piece has no number behind it; the model also takes "一".

## Squares, pieces and colours taken apart

`Model/Names` has the accessor functions of the module and its lists of names, with the C++ tables written out as in the source. Out-of-range squares and hand pieces are
undefined behaviour in it, as in the C++ code (the asserts are off in a release build). The Japanese names are not in it.

## Printing a board

`Model/Print` is `Position::print`: a first line and then the same loops as `toCSAPos`, which `Model/Csa` has. `Spec/Print` says what one sees on a square and in a hand.

## The switch for the declaration planes

`Model/Switch` has the flag of the C++ code and the numbers in the two Python modules as a state, and the imported names as numbers of their own. What
`make_input_features` writes is in `Model/Planes`. The shapes and types of the arrays, which the code does not check, are not in it.

## KI2 records

`Model/Ki2` covers `move_to_ki2`, `Parser.parse_move_str`, `Parser.parse_str` and `Exporter` of cshogi/KI2.py, with the regular
expressions written out as readers. `parse_move_str` can loop for ever on a line; the model takes a number of rounds and spent rounds are
`.ub`. The theorems hold for every number from two (one move in a line). `Spec/Ki2` says when a move needs little to be told apart
(`Plain`): at most one rival, and no drop of the kind if there is one. Not modelled: files and encodings, dates.

## Talking to engines

`Model/Usi` covers `position`, `go` and `InfoListener` of cshogi/usi/Engine.py, and `usi_info_to_csa_comment` and `usi_info_to_score` of
cli.py (24-63). The engine is the list of the lines it writes; after them `readline` gives the empty text for ever. The regular
expressions are functions that try the longest text first. Not modelled: the process, encodings, the other commands of `Engine`,
blanks and underscores inside the numbers that `int()` accepts. `Spec/Usi` gives the form of an `info` line.

`Model/MultiPv` has `MultiPVListener` without the listener that it may call first.

## Reading and setting a board

`Model/Query` covers `pieces`, `pieces_in_hand`, `set_pieces`, `turn = …`, `is_ok` (without its printing), `history`, `peek` and
`set_position` of src/cshogi.h, with `operator>>` as splitting at blanks. `Spec/Parts` gives the numbers of pieces and the order of
the hands, `Spec/Line` says what a line of legal moves is.

## PGN records

`Model/Pgn` covers `move_to_san` and `Exporter.movetext` of cshogi/PGN.py; there is no parser in the code, so the statements are about
the words of the text (`Spec/Pgn`). `tag_pair` is in C101.

## CSA records

`Model/Csa` covers the whole of `parse_csa`, `parse_position` and `to_sfen` (parser.h), `toCSAPos`, and the `info`, `move` and
`endgame` methods of the Python exporter for boards. `std::stof` is a parameter. `Model/CsaFile` adds version, names, comment,
information, starts given as text, comments of moves, the separator, several games in a file, `parse_str`, `var_info` and the ASCII decoding of
`comments`. Texts are lists of characters, not of UTF-8 bytes: the places where the parser counts bytes lie before any free text. Not
modelled: lists of names that do not have two entries, failing writes to the file, `Parser.parse_file` beyond reading the text.

## Assumptions about the compiler

* `piece_planes_rotate` counts `for (Color c = White; c >= Black; --c)`: the last decrement makes `Color(-1)`, formally out of
  range for the enumeration. The model takes the comparison as false, as GCC, Clang and MSVC do.

## Preconditions of the legality theorems

`Spec.Pos.Regular` (one king each, the side not to move is not in check, no piece on a square it could never leave) is
needed: without an own or an enemy king the generators index tables with the square number 81 (`none` in the model), and a
pawn on its last rank makes the pawn shift wrap into the next file. Every position reached from a regular one by listed
moves, passes out of check and take-backs is regular (C29).
