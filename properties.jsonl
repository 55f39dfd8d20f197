{"id": "C01", "title": "Move integers decode to exactly the fields they were built from", "statement": "For every board move built by Board.move (any source, destination, moving piece type, captured piece type, promotion flag) and every drop built by Board.drop_move, the accessors move_to, move_from, move_is_promotion, move_is_drop, move_from_piece_type, move_cap and move_drop_hand_piece return exactly the fields used to build it; distinct field tuples give distinct integers.", "quantifier": "all squares, piece types, captured types, promotion flags and all 7 droppable kinds", "why_tests_cant": "The field space is large (81*81*15*15*2) and the claim of injectivity ranges over pairs of moves.", "anchors": ["src/move.hpp: Move, makeMove, makeCaptureMove, makeCapturePromoteMove, makeDropMove", "src/cshogi.h: __Board::move, __Board::drop_move, __move_to, __move_from, __move_cap, __move_is_promotion, __move_is_drop, __move_from_piece_type, __move_drop_hand_piece"]}
{"id": "C02", "title": "16-bit move and YaneuraOu PSV move are inverse encodings", "statement": "move16_from_psv(move16_to_psv(m)) = m for every 16-bit move m that denotes a board move or a drop, and move16_to_psv(move16_from_psv(v)) = v for every PSV move v; neither conversion confuses drops with board moves nor loses the promotion flag.", "quantifier": "all 16-bit values with a square destination and either a square source or one of the 7 drop codes", "why_tests_cant": "Round trip over the whole code space in both directions.", "anchors": ["src/cshogi.h: __move16, __move16_from_psv, __move16_to_psv"]}
{"id": "C03", "title": "A 16-bit move plus the position recovers the full move", "statement": "For every position and every move of the side to move whose recorded moving and captured piece types agree with the board, move_from_move16(move16(m)) = m and move_from_psv(move16_to_psv(move16(m))) = m.", "quantifier": "all board contents and all moves consistent with the board", "why_tests_cant": "Ranges over all positions times all moves.", "anchors": ["src/move.hpp: move16toMove", "src/cshogi.h: __Board::move_from_move16, __Board::move_from_psv"]}
{"id": "C04", "title": "move_rotate rotates by 180 degrees and is an involution", "statement": "For every move, move_rotate maps destination (and, for board moves, source) s to 80-s, keeps drop kind, promotion, moving and captured piece types, and move_rotate(move_rotate(m)) = m.", "quantifier": "all 32-bit moves whose squares are on the board", "why_tests_cant": "Universal over the 32-bit move space.", "anchors": ["src/cshogi.h: __move_rotate"]}
{"id": "C05", "title": "USI move strings round-trip", "statement": "For every position and every legal move m, move_from_usi(move_to_usi(m)) = m; and two different legal moves of one position never have the same USI string.", "quantifier": "all positions, all legal moves of the position", "why_tests_cant": "Requires every position and every move; the parser also re-validates legality.", "anchors": ["src/move.cpp: Move::toUSI", "src/usi.cpp: usiToMoveBody, usiToMove", "src/cshogi.h: __Board::move_from_usi"]}
{"id": "C06", "title": "CSA move strings round-trip", "statement": "For every position and every legal move m, move_from_csa(move_to_csa(m)) = m.", "quantifier": "all positions, all legal moves of the position", "why_tests_cant": "Requires every position and every move; promotion is recovered from the board, not from the string.", "anchors": ["src/move.cpp: Move::toCSA", "src/usi.cpp: csaToMoveBody, csaToMove", "src/cshogi.h: __Board::move_from_csa"]}
{"id": "C07", "title": "Parsing an external move never yields an illegal move", "statement": "For every position and every string s, move_from_usi(s) is either 0 or a member of legal_moves; likewise move_from_csa(s).", "quantifier": "all positions and all strings", "why_tests_cant": "Unbounded input strings and all positions.", "anchors": ["src/usi.cpp: usiToMoveBody, csaToMoveBody", "src/position.cpp: Position::moveIsPseudoLegal, Position::pseudoLegalMoveIsLegal"]}
{"id": "C08", "title": "dlshogi move labels are in range and distinguish legal moves", "statement": "For every position, every legal move's label for the side to move lies in [0, 27*81), and two different legal moves of one position that differ in their 16-bit code get different labels.", "quantifier": "all positions and all pairs of legal moves in the position", "why_tests_cant": "Injectivity depends on blocking of sliding pieces in every position.", "anchors": ["src/cshogi.h: __dlshogi_make_move_label, get_move_direction"]}
{"id": "C09", "title": "Pieces in hand behave as seven independent counters", "statement": "Adding or removing one piece of a kind changes the count of that kind by one and no other count, for every reachable hand (counts within a shogi set); setting counts from a position description reads back the same counts.", "quantifier": "all hands with counts up to the shogi maximum, any sequence of additions and removals", "why_tests_cant": "Packed 32-bit representation: carries could leak between fields for some of the ~10^6 hands.", "anchors": ["src/hand.hpp: Hand::numOf, Hand::exists, Hand::plusOne, Hand::minusOne, Hand::orEqual", "src/hand.cpp: HandPieceShiftBits, HandPieceMask, HandPieceOne"]}
{"id": "C10", "title": "Hand superiority test is exactly the pointwise comparison", "statement": "The packed-subtraction test used for superior/inferior repetition says 'equal or superior' if and only if every kind is held in at least the same number.", "quantifier": "all pairs of hands with counts up to the shogi maximum", "why_tests_cant": "Quadratic number of pairs of packed words; borrow propagation.", "anchors": ["src/hand.hpp: Hand::isEqualOrSuperior, Hand::BorrowMask"]}
{"id": "C11", "title": "Bitboard operations are set operations on the 81 squares", "statement": "Setting, clearing, flipping, testing, union, intersection, difference, emptiness, population count, first-square extraction and iteration of a bitboard agree with the corresponding operations on sets of squares; iteration visits every member exactly once in ascending order and terminates.", "quantifier": "all bitboards and all squares", "why_tests_cant": "2^81 bitboards; the 63/18 bit split and the multiply/shift bit tricks must be right on all of them.", "anchors": ["src/bitboard.hpp: Bitboard", "src/common.hpp: firstOneFromLSB, BitTable, count1s"]}
{"id": "C12", "title": "Sliding attacks are ray walks for every occupancy", "statement": "For every square and every occupancy of the board, the lance, rook, bishop, horse and dragon attack sets are exactly the squares reached by walking each of the piece's directions up to and including the first occupied square, plus the adjacent king steps for horse and dragon.", "quantifier": "all 81 squares, both colours, all 2^81 occupancies", "why_tests_cant": "2^81 occupancies; table index and byte-reversal/subtraction tricks.", "anchors": ["src/bitboard.hpp: lanceAttack, rookAttack, rookAttackFile, rookAttackRank, bishopAttack, horseAttack, dragonAttack, Bitboard256, byteReverse, unpack, decrement", "src/init.cpp: lanceAttackCalc, initLanceAttacks, initAttackTables"]}
{"id": "C13", "title": "Step attacks, between-squares and alignment tables are geometrically exact", "statement": "Pawn, knight, silver, gold and king attack sets are exactly the shogi step patterns for either colour; the squares between two squares and the alignment relation of three squares are exactly the geometric ones.", "quantifier": "all squares / pairs / triples of squares", "why_tests_cant": "The tables are generated at start-up by code that must be right at every edge of the board.", "anchors": ["src/init.cpp: initKingAttacks, initGoldAttacks, initSilverAttacks, initPawnAttacks, initKnightAttacks, initSquareRelation, initBetweenBB", "src/square.hpp: isAligned, SquareRelation"]}
{"id": "C14", "title": "Attack queries find exactly the attacking pieces", "statement": "For every consistent position, colour and square, the attackers found for that square are exactly the pieces of that colour that could move there by the movement rules (own-piece destinations included), with any hypothetical occupancy supplied.", "quantifier": "all positions, colours, squares and occupancies", "why_tests_cant": "All positions.", "anchors": ["src/position.cpp: Position::attackersTo, Position::attackersToExceptKing, Position::attacksFrom"]}
{"id": "C15", "title": "All internal board views stay consistent through any game", "statement": "After setting up a position and any sequence of push, pop, push_pass and pop_pass of applicable moves, board.pieces, board.piece, per-type and per-colour bitboards, the gold-movers set, king_square, and the hands all describe the same position.", "quantifier": "all histories of operations of any length", "why_tests_cant": "Invariant over unbounded histories of incremental xor updates.", "anchors": ["src/position.cpp: Position::doMove, Position::undoMove, Position::xorBBs", "src/position.hpp: Position::setPiece", "src/cshogi.h: __Board::pieces, __Board::push, __Board::pop"]}
{"id": "C16", "title": "push plays the move according to the rules", "statement": "Pushing a legal move changes exactly the squares and hands the rules say: the source is vacated, the destination holds the (possibly promoted) mover, a captured piece goes unpromoted to the mover's hand, a drop removes one piece from hand, the turn flips and the move number increases by one.", "quantifier": "all positions and all legal moves", "why_tests_cant": "All positions and moves; refinement of incremental bit-level update to the rule-level transition.", "anchors": ["src/position.cpp: Position::doMove"]}
{"id": "C17", "title": "pop exactly undoes push", "statement": "For every position and every applicable move, push followed by pop restores every observable (pieces, hands, turn, move number, hash, checkers, repetition data), and any well-nested sequence of pushes and pops returns to the starting state.", "quantifier": "all positions, moves, and well-nested sequences of any length", "why_tests_cant": "Unbounded nesting and every capture/promotion/drop combination.", "anchors": ["src/position.cpp: Position::doMove, Position::undoMove", "src/cshogi.h: __Board::push, __Board::pop, __Board::peek, __Board::get_history"]}
{"id": "C18", "title": "push_pass / pop_pass exactly undo each other", "statement": "When not in check, push_pass flips the turn and nothing else on the board, and pop_pass restores every observable including repetition data, for any nesting of passes and moves.", "quantifier": "all positions and any nesting", "why_tests_cant": "Unbounded nesting; the pass edits the current record in place.", "anchors": ["src/position.cpp: Position::doNullMove", "src/cshogi.h: __Board::push_pass, __Board::pop_pass"]}
{"id": "C19", "title": "The hash key is a function of the position, not of the path", "statement": "After any sequence of pushes and pops the Zobrist hash equals the hash computed from scratch for the resulting placement, hands and turn; hence transpositions have equal hashes, for any random key table whose turn bit is free.", "quantifier": "all histories, all key tables", "why_tests_cant": "Unbounded histories; incremental + / - / xor mix.", "anchors": ["src/position.cpp: Position::doMove, Position::computeBoardKey, Position::computeHandKey, Position::initZobrist", "src/cshogi.h: __Board::getKey"]}
{"id": "C20", "title": "Look-ahead keys equal the keys after the move", "statement": "The key computed for a move without playing it equals the hash after pushing it, and book_key_after(book_key(), m) equals book_key() after pushing m.", "quantifier": "all positions and all legal moves, all key tables", "why_tests_cant": "All positions and moves.", "anchors": ["src/position.cpp: Position::getKeyAfter, Position::getBoardKeyAfter", "src/book.cpp: Book::bookKey, Book::bookKeyAfter"]}
{"id": "C21", "title": "is_check is exact after any legal game", "statement": "After any sequence of legal moves from a legal position, is_check() is true exactly when some enemy piece attacks the king of the side to move, and the recorded checking pieces are exactly those attackers (direct, discovered, double).", "quantifier": "all legal games of any length", "why_tests_cant": "The checkers are updated incrementally; unbounded histories and every discovered-check geometry.", "anchors": ["src/position.cpp: Position::doMove, Position::moveGivesCheck, CheckInfo::CheckInfo", "src/position.hpp: Position::findCheckers, Position::hiddenCheckers, Position::inCheck"]}
{"id": "C22", "title": "Check prediction equals the outcome of the move", "statement": "moveGivesCheck(m) is true exactly when, after m, the opponent's king is attacked.", "quantifier": "all legal positions and legal moves", "why_tests_cant": "All positions; direct and discovered check geometry.", "anchors": ["src/position.cpp: Position::moveGivesCheck, CheckInfo::CheckInfo"]}
{"id": "C23", "title": "Pinned pieces are exactly the absolutely pinned ones", "statement": "A piece of the side to move is reported pinned exactly when it is the only piece between its king and an enemy slider aimed at the king; moving it is illegal exactly when it leaves that line.", "quantifier": "all positions, pieces and destinations", "why_tests_cant": "All positions and alignments.", "anchors": ["src/position.hpp: Position::hiddenCheckers, Position::isPinnedIllegal, Position::pinnedBB", "src/square.hpp: isAligned"]}
{"id": "C24", "title": "legal_moves contains only legal moves", "statement": "Every move yielded by legal_moves in a legal position obeys the rules of shogi: piece movement, promotion zone, no piece left without moves, no double pawn, no pawn-drop mate, and the own king is not attackable afterwards.", "quantifier": "all legal positions and all generated moves", "why_tests_cant": "All positions; evasion generation, pins and drop masks interact.", "anchors": ["src/generateMoves.cpp: GenerateMoves<LegalAll>, GenerateMoves<Evasion>, GenerateMoves<NonEvasion>, GeneratePieceMoves, generateDropMoves", "src/position.cpp: Position::pseudoLegalMoveIsLegal"]}
{"id": "C25", "title": "legal_moves contains every legal move", "statement": "Every move allowed by the rules in a legal position (including non-promotions) is yielded by legal_moves; is_game_over is true exactly when there is none.", "quantifier": "all legal positions and all rule-legal moves", "why_tests_cant": "Completeness over all positions cannot be sampled.", "anchors": ["src/generateMoves.cpp: GenerateMoves<LegalAll>", "src/cshogi.h: __LegalMoveList, __Board::is_game_over"]}
{"id": "C26", "title": "legal_moves has no duplicates", "statement": "No move appears twice in legal_moves, so len(legal_moves) is the number of legal moves.", "quantifier": "all positions", "why_tests_cant": "All positions; several overlapping generators contribute.", "anchors": ["src/generateMoves.cpp: GenerateMoves", "src/generateMoves.hpp: MoveList"]}
{"id": "C27", "title": "is_legal agrees with legal_moves", "statement": "is_legal(m) is true exactly when m is in legal_moves.", "quantifier": "all legal positions and all move integers", "why_tests_cant": "All positions times all integers.", "anchors": ["src/cshogi.h: __Board::moveIsLegal, __Board::moveIsPseudoLegal, __Board::pseudoLegalMoveIsLegal", "src/position.cpp: Position::moveIsPseudoLegal"]}
{"id": "C28", "title": "Pawn-drop mate is detected exactly", "statement": "A checking pawn drop is excluded from legal_moves exactly when the opponent would have no legal reply.", "quantifier": "all legal positions with a checking pawn drop", "why_tests_cant": "All positions; pinned defenders and shielded escape squares.", "anchors": ["src/position.cpp: Position::isPawnDropCheckMate, canPieceCapture"]}
{"id": "C29", "title": "A legal move never leaves the mover's king capturable", "statement": "After any legal game the side that just moved is not in check; hence the 'legal position' invariant is preserved by push of any member of legal_moves.", "quantifier": "all legal games of any length", "why_tests_cant": "Invariant over unbounded games.", "anchors": ["src/position.cpp: Position::doMove", "src/generateMoves.cpp: GenerateMoves<LegalAll>"]}
{"id": "C30", "title": "Material is conserved", "statement": "Through any sequence of legal pushes and pops the number of pieces of each basic kind (board of either colour, promoted or not, plus both hands) never changes, so hand counts never overflow their fields when started from a shogi set.", "quantifier": "all games of any length from any position with at most one shogi set", "why_tests_cant": "Unbounded games.", "anchors": ["src/position.cpp: Position::doMove, Position::undoMove", "src/hand.hpp: Hand::plusOne, Hand::minusOne"]}
{"id": "C31", "title": "SFEN round-trip", "statement": "For every position (any placement, hands within a shogi set, either turn, any move number), Board(board.sfen()) has the same placement, hands, turn, move number, hash and check status.", "quantifier": "all positions with hands up to 18/4/4/4/4/2/2 and all positive move numbers", "why_tests_cant": "All positions; run-length and multi-digit counts.", "anchors": ["src/position.cpp: Position::toSFEN, Position::set(const std::string&)", "src/position.hpp: CharToPieceUSI"]}
{"id": "C32", "title": "Board.set never corrupts memory on malformed SFEN", "statement": "For every string, setting a board from it either succeeds in a state whose views agree or raises an error; it never performs an out-of-range access.", "quantifier": "all strings", "why_tests_cant": "Unbounded adversarial input.", "anchors": ["src/position.cpp: Position::set(const std::string&)", "src/position.hpp: Position::setPiece, Position::setHand"]}
{"id": "C33", "title": "Huffman-coded position (hcp) round-trip", "statement": "For every position with both kings and at most one shogi set of pieces, set_hcp(to_hcp()) restores placement, hands and turn.", "quantifier": "all such positions including handicap positions", "why_tests_cant": "All positions; variable-length codes.", "anchors": ["src/position.cpp: Position::toHuffmanCodedPos, Position::set_hcp, HuffmanCodedPos tables", "src/position.hpp: BitStream, HuffmanCodedPos::init"]}
{"id": "C34", "title": "Packed SFEN (psfen) round-trip", "statement": "For every position with both kings and at most one shogi set of pieces, set_psfen(to_psfen()) restores placement, hands and turn.", "quantifier": "all such positions including handicap positions", "why_tests_cant": "All positions; variable-length codes.", "anchors": ["src/position.cpp: Position::toPackedSfen, Position::set_psfen, PackedSfen tables"]}
{"id": "C35", "title": "Encoded positions always occupy exactly 256 bits", "statement": "For every position with both kings and at most one shogi set, the hcp and psfen encoders write exactly 256 bits, never past the 32-byte buffer.", "quantifier": "all such positions", "why_tests_cant": "Memory safety for all positions; the length is a sum over a variable-length code.", "anchors": ["src/position.cpp: Position::toHuffmanCodedPos, Position::toPackedSfen"]}
{"id": "C36", "title": "Distinct positions have distinct encodings", "statement": "Two positions with the same hcp (or the same psfen, or the same sfen) have the same placement, hands and turn.", "quantifier": "all pairs of positions", "why_tests_cant": "Ranges over pairs of positions.", "anchors": ["src/position.cpp: Position::toHuffmanCodedPos, Position::toPackedSfen, Position::toSFEN"]}
{"id": "C37", "title": "Repetition verdict matches the game history", "statement": "is_draw() finds the most recent earlier position (at even distance at least 4, within the ply limit and since the last pass) with the same board and turn and comparable hands, and classifies it as draw, win/lose by perpetual check, superior or inferior exactly as defined.", "quantifier": "all game histories of any length", "why_tests_cant": "Unbounded histories; perpetual-check counters are incremental.", "anchors": ["src/position.cpp: Position::isDraw, Position::doMove", "src/position.hpp: StateInfo"]}
{"id": "C38", "title": "is_draw never looks outside the recorded history", "statement": "For every history of push, pop, push_pass, pop_pass, is_draw and move_is_draw only visit recorded positions (no null dereference).", "quantifier": "all histories and all ply limits", "why_tests_cant": "Unbounded histories and pointer-chain depth.", "anchors": ["src/position.cpp: Position::isDraw, Position::moveIsDraw, Position::doMove, Position::doNullMove"]}
{"id": "C39", "title": "move_is_draw predicts is_draw", "statement": "For every history and legal move m, move_is_draw(m) equals is_draw() evaluated after push(m).", "quantifier": "all histories and moves", "why_tests_cant": "Unbounded histories.", "anchors": ["src/position.cpp: Position::moveIsDraw, Position::isDraw"]}
{"id": "C40", "title": "Entering-king declaration is exactly the 27-point rule", "statement": "is_nyugyoku() is true exactly when the side to move is not in check, its king is in the far three ranks, at least ten of its other pieces are there, and its points (5 for rook/bishop kinds, 1 for others, pieces in the zone plus hand) reach 28 for Black or 27 for White.", "quantifier": "all positions", "why_tests_cant": "All positions; popcount of masks.", "anchors": ["src/search.cpp: nyugyoku", "src/cshogi.h: __Board::is_nyugyoku"]}
{"id": "C41", "title": "rotate_sfen is the 180-degree rotation and an involution", "statement": "For every position, rotate_sfen(sfen) is the SFEN of the position with the board rotated by 180 degrees and colours exchanged, and applying it twice gives the original string.", "quantifier": "all positions", "why_tests_cant": "All positions; string-level parser with digit handling.", "anchors": ["src/cshogi.h: __rotate_sfen"]}
{"id": "C42", "title": "Feature planes are exact", "statement": "piece_planes sets exactly one cell for every piece on the board, in the plane of its colour and type; the rotated variant gives, for White to move, the planes of the rotated and colour-swapped board.", "quantifier": "all positions", "why_tests_cant": "All positions.", "anchors": ["src/cshogi.h: __Board::piece_planes, __Board::piece_planes_rotate"]}
{"id": "C43", "title": "Fixed-depth mate search is sound", "statement": "If mate_move(n) returns a move or is_mate(n) returns true, then there is a forced mate within n plies in the game tree of legal moves (with repetition verdicts counted as the search does).", "quantifier": "all positions and depths", "why_tests_cant": "Game-tree quantifier alternation of unbounded depth.", "anchors": ["src/mate.cpp: mateMoveInOddPlyReturnMove, mateMoveInOddPly, mateMoveInEvenPly, mateMoveIn3Ply"]}
{"id": "C44", "title": "A copied board is independent of the original", "statement": "After copying a board (copy construction or assignment), the copy has the same observables and full history chain, and no operation on one board changes or reads the records of the other.", "quantifier": "all boards with any history, all subsequent operation sequences", "why_tests_cant": "Pointer aliasing over unbounded histories.", "anchors": ["src/cshogi.h: __Board::relinkStateInfo", "src/position.cpp: Position::operator="]}
{"id": "C45", "title": "CSA position dump parses back to the same position", "statement": "Parsing board.csa_pos() as a CSA record start gives the SFEN of the same placement, hands and turn.", "quantifier": "all positions", "why_tests_cant": "All positions; text format round trip.", "anchors": ["src/position.cpp: Position::toCSAPos", "src/parser.h: __Parser::parse_position, __Parser::to_sfen"]}
{"id": "C46", "title": "CSA piece-placement lines are read in file-rank order", "statement": "In a CSA record, a line P+ff or P-ff places the piece on the square whose file is the first digit and rank the second digit, as the CSA standard defines.", "quantifier": "all squares and pieces", "why_tests_cant": "All squares; the test-suite has only samples.", "anchors": ["src/parser.h: __Parser::parse_position"]}
{"id": "C47", "title": "Legal-move buffers are never overrun", "statement": "Generating moves writes at most the capacity (594) of the move buffer.", "quantifier": "all positions that can be set up", "why_tests_cant": "Extremal bound over all positions.", "anchors": ["src/position.hpp: MaxLegalMoves", "src/generateMoves.hpp: MoveList"]}
{"id": "C48", "title": "The promotion-zone test is exactly the far three ranks", "statement": "A square counts as promotion zone for a colour exactly when it is in that colour's three farthest ranks; the bit-mask test agrees for every colour and rank.", "quantifier": "both colours, all ranks", "why_tests_cant": "Bit trick; used by every generator.", "anchors": ["src/square.hpp: canPromote, isInFrontOf, isOpponentField"]}
{"id": "C49", "title": "Encoding any held position stays inside the 32-byte buffer", "statement": "For every position a Board can hold, with or without kings and with at most one shogi set of pieces, to_hcp and to_psfen write only inside the 32 bytes of the given array.", "quantifier": "all positions within one shogi set", "why_tests_cant": "Memory safety over all positions; a one-bit overrun is silent.", "anchors": ["src/position.cpp: Position::toHuffmanCodedPos, Position::toPackedSfen", "src/position.hpp: BitStream::putBit"]}
{"id": "C50", "title": "set_hcp and set_psfen are safe on arbitrary bytes", "statement": "For every 32-byte input, set_hcp and set_psfen either raise an error or leave a board whose board array, bitboards, hands and key agree; they never read outside the input nor index outside the board.", "quantifier": "all 32-byte arrays", "why_tests_cant": "2^256 inputs, most of them malformed; reads past the end of a local copy are silent.", "anchors": ["src/position.cpp: Position::set_hcp, Position::set_psfen", "src/position.hpp: BitStream::getBit, HuffmanCodeToPieceHash::value"]}
{"id": "C51", "title": "A rejected set_position leaves a usable board", "statement": "After set_position raised an error because its text is neither startpos nor sfen, the board still answers queries and accepts moves.", "quantifier": "all boards with any history", "why_tests_cant": "The records freed by the failing call are still readable by accident; needs the ownership of every state record.", "anchors": ["src/cshogi.h: __Board::set_position"]}
{"id": "C52", "title": "A CSA record written by the exporter parses back to the same game", "statement": "Writing a game with CSA.Exporter (info, move with optional time, endgame with optional time) and parsing the text with CSA.Parser gives the same start position, moves, times, end word, and the winner that the end word means for the side to move at the end.", "quantifier": "all legal start positions, all games of legal moves of any length, all times of an int, all end words", "why_tests_cant": "Unbounded games; the text of every move must be read back in the position the parser has reached.", "anchors": ["src/parser.h: __Parser::parse_csa", "cshogi/CSA.py: Exporter.info, Exporter.move, Exporter.endgame"]}
{"id": "C53", "title": "PI lines set up handicap positions", "statement": "In a CSA record, PI followed by square-piece pairs gives the initial position without exactly those pieces, whatever their order, with the side to move given.", "quantifier": "all subsets and orders of the forty initial pieces, both sides to move", "why_tests_cant": "2^40 subsets and their orders.", "anchors": ["src/parser.h: __Parser::parse_position"]}
{"id": "C54", "title": "Score comments belong to the last move read", "statement": "A score comment ('** number ...) in a CSA record is stored with the last move read and changes nothing else, wherever it stands in the record.", "quantifier": "all records, all comment texts", "why_tests_cant": "A comment before the first move writes outside an empty vector, which often goes unnoticed.", "anchors": ["src/parser.h: __Parser::parse_csa"]}
{"id": "C55", "title": "mate_move_in_1ply returns only mates", "statement": "If mate_move_in_1ply() returns a nonzero move, that move is legal and after pushing it the opponent is checkmated.", "quantifier": "all legal positions of both sides", "why_tests_cant": "Every geometry of check, pin, interposition and escape would have to be met; a wrong claim shows only in rare positions.", "anchors": ["src/position.cpp: Position::mateMoveIn1Ply, canKingEscape, canPieceCapture", "cshogi/_cshogi.pyx: Board.mate_move_in_1ply"]}
{"id": "C56", "title": "mate_move_in_1ply finds a mate whenever there is one", "statement": "If some legal move checkmates the opponent, mate_move_in_1ply() returns a nonzero move.", "quantifier": "all legal positions", "why_tests_cant": "Absence of a missed mate needs all positions.", "anchors": ["src/position.cpp: Position::mateMoveIn1Ply", "cshogi/_cshogi.pyx: Board.mate_move_in_1ply"]}
{"id": "C57", "title": "The mate search never overruns its move buffer", "statement": "is_mate(n) and mate_move(n) never write more than 91 moves into the move buffers they keep on the stack, for any position of one shogi set.", "quantifier": "all legal positions and depths", "why_tests_cant": "The largest numbers of checks and of answers to a check occur only in extreme positions that games do not reach.", "anchors": ["src/mate.cpp: MovePicker, MaxCheckMoves", "src/generateMoves.cpp: GenerateMoves<US, Evasion>, GenerateMoves<US, Check>", "cshogi/_cshogi.pyx: Board.is_mate, Board.mate_move"]}
{"id": "C58", "title": "The mate search leaves the board as it was", "statement": "When is_mate(n) or mate_move(n) returns, pieces, hands, side to move, hash keys, checkers, counters and the record of earlier positions are the same as before the call.", "quantifier": "all legal positions, all games, all n including zero and negative", "why_tests_cant": "Every early return of the nested loops must have undone each move it made; rare branches (repetition verdicts, interrupted loops) are hard to reach.", "anchors": ["src/mate.cpp: mateMoveInOddPlyReturnMove, mateMoveInOddPly, mateMoveInEvenPly, mateMoveIn3Ply", "src/position.cpp: Position::doMove, undoMove"]}
{"id": "C59", "title": "The df-pn search answers true only for forced mates", "statement": "When DfPn.search(board) answers True, the side to move has a sequence of checks that mates against every legal defence. When DfPn.search_andnode(board), called on a board whose side to move is in check, answers True, the side to move is mated against every defence.", "quantifier": "all legal positions, all settings of depth, nodes and draw ply", "why_tests_cant": "Proved nodes are shared between positions by hash key and by comparing hands; a wrong proof hand or key shows only when two particular positions meet in one search.", "anchors": ["src/dfpn.cpp: DfPn::dfpn, DfPn::dfpn_andnode, DfPn::dfpn_inner, TranspositionTable::LookUpDirect", "src/hand.hpp: Hand::setPP", "cshogi/_cshogi.pyx: DfPn.search, DfPn.search_andnode"]}
{"id": "C60", "title": "DfPn.get_move names a winning check", "statement": "After DfPn.search(board), get_move(board) returns 0 or the move integer of a legal move that gives check and after which the opponent is mated by force.", "quantifier": "all legal positions and search settings", "why_tests_cant": "The move is looked up by key and hand in a table filled by the whole search; wrong entries surface in few positions.", "anchors": ["src/dfpn.cpp: DfPn::dfpn_move", "cshogi/_cshogi.pyx: DfPn.get_move"]}
{"id": "C61", "title": "The df-pn search leaves the board as it was", "statement": "When DfPn.search or DfPn.search_andnode returns, pieces, hands, side to move, hash keys, checkers, counters and the record of earlier positions are the same as before the call.", "quantifier": "all legal positions, all search settings, all moments at which the search is stopped", "why_tests_cant": "Each early return (stop, node limit, repetition, proof) on every level must have undone its moves.", "anchors": ["src/dfpn.cpp: DfPn::dfpn, DfPn::dfpn_andnode, DfPn::dfpn_inner, DfPn::get_pv"]}
{"id": "C62", "title": "DfPn.get_pv is a line of legal moves and winning checks", "statement": "get_pv leaves the board as it was; its moves can be played one after the other as legal moves, the side that begins gives check by each of its moves, and after each of them the opponent is mated by force.", "quantifier": "all legal positions and search settings", "why_tests_cant": "The line is put together from table entries of different parts of the search.", "anchors": ["src/dfpn.cpp: DfPn::get_pv_inner, DfPn::get_pv", "cshogi/_cshogi.pyx: DfPn.get_pv, DfPn.pv"]}
{"id": "C63", "title": "dlshogi input features show the position", "statement": "After dlshogi.make_input_features(board, features1, features2) the first array is 1 exactly where, seen from the side to move, a piece of the plane's side and kind stands, where such a piece attacks, and where at least one, two or three pieces of the side attack; the second array shows per side and kind how many pieces are in hand (at most 8 pawns) and whether the side to move is in check. All other cells are 0 whatever was there before, and nothing outside is written.", "quantifier": "all positions with the pieces of one set or fewer, all earlier contents of the arrays", "why_tests_cant": "Every combination of square, kind, side, occupancy and turn is involved; the planes are reached by index arithmetic.", "anchors": ["src/cshogi.h: __Board::_dlshogi_make_input_features", "cshogi/dlshogi: make_input_features"]}
{"id": "C64", "title": "dlshogi declaration planes show what is missing", "statement": "With use_nyugyoku_features(True), make_input_features shows for each side whether its king is in the far three ranks, how many pieces are still missing there for a declaration and how many points are still missing, each by exactly one plane (none if 10 pieces or 20 points or more are missing), whatever the arrays held before.", "quantifier": "all positions with the pieces of one set or fewer, all earlier contents of the arrays", "why_tests_cant": "Positions with more than enough pieces or points are rare, and fresh arrays hide what is not cleared.", "anchors": ["src/cshogi.h: __Board::_dlshogi_make_input_features"]}
{"id": "C65", "title": "KIF records are read back", "statement": "A game of legal moves from the starting position or from one of the fourteen named handicaps, written with KIF.Exporter (header, move, end), is read by KIF.Parser.parse_str: the start position, the names, the moves in order and the seconds spent on each move come back.", "quantifier": "all named starts, games of any length, times, names that fit in a line, reasons for the end", "why_tests_cant": "Every legal move of every position must survive the text, including drops, promotions and \"same square\" after each earlier move; games are unbounded.", "anchors": ["cshogi/KIF.py: Exporter.header, Exporter.move, move_to_kif, Parser.parse_move_str, Parser.parse_str"]}
{"id": "C66", "title": "KIF records keep the start position", "statement": "The start position given to KIF.Exporter.header, by name or as a board, is the one KIF.Parser reports (sfen).", "quantifier": "all named starts and all legal boards", "why_tests_cant": "There are unboundedly many boards; the parser reports a start in any case.", "anchors": ["cshogi/KIF.py: Exporter.header, board_to_bod, Parser.parse_str"]}
{"id": "C67", "title": "KIF records keep the result", "statement": "After KIF.Exporter.end with a resignation, a declaration, an impasse or a repetition, KIF.Parser reports the right winner and the seconds spent.", "quantifier": "all named starts, games of any length, the four reasons", "why_tests_cant": "The winner depends on the start, the number of moves and the reason together.", "anchors": ["cshogi/KIF.py: Exporter.end, Parser.parse_str, Parser.RESULT_RE, Parser.MOVE_RE"]}
{"id": "C68", "title": "KI2 move texts are read back", "statement": "The text KI2.move_to_ki2 writes for a legal move is read by KI2.Parser.parse_move_str on the same board as that move; a line with the texts of several moves is read as those moves.", "quantifier": "all reachable boards, all legal moves", "why_tests_cant": "The text leaves out the origin and names it only as far as other pieces of the kind make it necessary, so every arrangement of such pieces, hands and obstacles matters.", "anchors": ["cshogi/KI2.py: move_to_ki2, Parser.parse_move_str, Parser.MOVE_RE"]}
{"id": "C69", "title": "KI2 records are read back", "statement": "A game of legal moves from the starting position written with KI2.Exporter (header, move with or without a comment, end) is read by KI2.Parser.parse_str: start position, names, moves in order and the comment of every move.", "quantifier": "games of any length, comments of one line, names that fit in a line, reasons for the end", "why_tests_cant": "Games are unbounded and every move depends on the position reached; comments must stay with their moves when others have none.", "anchors": ["cshogi/KI2.py: Exporter.header, Exporter.move, Parser.parse_str"]}
{"id": "C70", "title": "KI2 records keep the result", "statement": "After KI2.Exporter.end with one of the reasons it accepts, KI2.Parser reports that reason and the winner the CSA standard gives for it.", "quantifier": "games of any length, all reasons", "why_tests_cant": "The winner depends on the side to move at the end and the reason together, and passes through a sentence in Japanese.", "anchors": ["cshogi/KI2.py: Exporter.end, Parser.parse_str, Parser.RESULT_RE"]}
{"id": "C71", "title": "PGN movetext is the game", "statement": "PGN.Exporter.movetext writes, between blanks and line breaks, the number before each move of the first side, the text of every move in order (piece letter, origin, destination, promotion mark; or piece letter, @, destination) and the result given to tag_pair. Two legal games from one position with the same movetext are the same game.", "quantifier": "all legal games of any length, all results", "why_tests_cant": "Lines are broken depending on the lengths of all words before; injectivity is about all pairs of games.", "anchors": ["cshogi/PGN.py: move_to_san, PGN_PIECE_TYPES, Exporter.movetext"]}
{"id": "C72", "title": "PGN lines have at most 80 characters", "statement": "No line PGN.Exporter.movetext writes for a legal game is longer than 80 characters.", "quantifier": "all legal games of fewer than 10^40 moves, all results", "why_tests_cant": "A line is too long only when the lengths of its words add up to exactly the limit.", "anchors": ["cshogi/PGN.py: Exporter.movetext"]}
{"id": "C73", "title": "Boards are read and set piece by piece", "statement": "Board.pieces lists for every square the piece standing on it and pieces_in_hand the number of pieces of each kind in each hand. set_pieces with any board and any hands inside the set gives exactly that position, with all internal views and the key right and an empty history; setting what was read changes nothing. Assigning turn gives the same board with that side to move, and the result is the position set_sfen reads from the text with the side to move replaced.", "quantifier": "all boards, all hands inside the set, all consistent positions, both colours", "why_tests_cant": "The domain is all placements of pieces; tests set a few boards.", "anchors": ["src/cshogi.h: pieces, pieces_in_hand, set_pieces, setTurn", "src/position.cpp: set(const Piece[], const int[][7])"]}
{"id": "C74", "title": "is_ok accepts every position of a legal game and accepts only agreeing tables", "statement": "Board.is_ok is true after every sequence of legal moves, passes and take-backs from a regular position. If it is true, then the tables by square, by kind and by colour show the same board, each side has at most one king and one side has one, the key is the key of the position, and there are at most two checkers.", "quantifier": "all regular positions, all legal histories; all positions for the second part", "why_tests_cant": "A check that is wrong for one rare position (double check, empty square beside a promoted piece) passes all sampled games.", "anchors": ["src/position.cpp: isOK"]}
{"id": "C75", "title": "set_position sets up the position and the moves of a USI command", "statement": "Board.set_position with the text 'sfen <position> moves <m1> <m2> …' or 'startpos moves …', with the position's own SFEN text and the USI texts of moves legal one after the other, gives the board on which exactly these moves have been pushed from that position, so history, position and key are those of the game. Any word in the place of a move that is not a legal move makes it raise, and so does a command that is not of one of the two forms.", "quantifier": "all regular positions, all legal lines, all Zobrist tables", "why_tests_cant": "Round trip over all positions and all lines of moves of any length.", "anchors": ["src/cshogi.h: set_position", "src/usi.cpp: usiToMove"]}
{"id": "C76", "title": "The learning environment rewards games by the rules", "statement": "ShogiEnv.step, after any legal moves from a position set by reset, takes every legal move, refuses every illegal one, and charges a point for resigning. If the position then has come up for the fourth time (the first one included) the game is over, and the reward is 1, 0 or -1 for the side that moved as the rules judge the repetition: a perpetual check since the first of the four occurrences loses, anything else is drawn. Otherwise the game is over exactly when the opponent has no legal move, and this earns a point.", "quantifier": "all regular positions, all legal lines of any length, all moves", "why_tests_cant": "Repetitions mixed of checks and other moves are rare in sampled games, and the reward depends on the whole record.", "anchors": ["cshogi/gym_shogi/envs/shogi_env.pyx: reset, step", "src/position.cpp: isDraw"]}
{"id": "C77", "title": "A match game is won by the engine that the rules call the winner", "statement": "For any two engines, whatever they answer, cli.main ends a game exactly when it is decided - by the move limit, the clock, resignation or the resignation threshold, a declaration, an illegal move, an announced mate, a fourfold repetition or mate - and counts it for the side that wins by that. It never performs undefined behaviour.", "quantifier": "all sequences of answers, scores and thinking times, all limits, clocks and thresholds", "why_tests_cant": "The domain is all behaviours of two engines over a whole game; games that end on the last permitted ply or by repetition of the first position are rare.", "anchors": ["cshogi/cli.py: main"]}
{"id": "C78", "title": "The counts of a match are right", "statement": "After any number of games with any results, with or without swapping colours, cli.main reports the number of games that each engine won, that Black and White won, that were drawn, and as total the number of games; the lines for playing Black and White give the wins, losses and draws of that engine with that colour; and no percentage is a division by zero.", "quantifier": "all sequences of results, swapping or not", "why_tests_cant": "Counters indexed by engine, colour and result agree on short or one-sided matches even if two of them are mixed up.", "anchors": ["cshogi/cli.py: main"]}
{"id": "C79", "title": "The record of a match game ends with the result that is counted", "statement": "The last line that cli.main writes to the CSA record of a game says, by the CSA standard, the result that is counted for it and why the game ended.", "quantifier": "all games", "why_tests_cant": "Each ending has its own branch; some need a perpetual check in a match of engines.", "anchors": ["cshogi/cli.py: main", "cshogi/CSA.py: Exporter.endgame"]}
{"id": "C80", "title": "pseudo_legal_moves and is_pseudo_legal agree", "statement": "pseudo_legal_moves lists, each once, exactly the moves that is_pseudo_legal accepts: the moves that obey the rules of movement, promotion and dropping (a mate by a dropped pawn is left out), whether or not they expose the king; and pseudo_legal_move_is_legal tells which of them are legal.", "quantifier": "all legal positions, in check or not, all moves", "why_tests_cant": "A list generator and a test written separately can differ on single moves of single positions; a test compares them only on the moves it thinks of.", "anchors": ["cshogi/_cshogi.pyx: Board.pseudo_legal_moves, is_pseudo_legal, pseudo_legal_move_is_legal", "src/position.cpp: Position::moveIsPseudoLegal, pseudoLegalMoveIsLegal", "src/generateMoves.cpp"]}
{"id": "C81", "title": "Engine.position hands the engine the same game", "statement": "Given the default `startpos`, or the text `sfen ` with a board's SFEN, and USI texts of moves, Engine.position sends one line `position ...`; the rest of that line, read by Board.set_position, gives the board on which exactly those moves were pushed from that position. The same holds for the text that Board.sfen() returns, as the argument is documented.", "quantifier": "all legal positions, all lines of legal moves, with or without moves", "why_tests_cant": "Every position and every line of moves; a test sends a few.", "anchors": ["cshogi/usi/Engine.py: Engine.position", "src/cshogi.h: set_position"]}
{"id": "C82", "title": "Engine.go sends every limit it is given and returns the answer", "statement": "Engine.go sends one line `go ...` in which each limit that was given stands behind its name and nothing else does; it returns the move, and the move to ponder on, of the first line that begins with bestmove, whatever comes before or after; if the engine ends without an answer, it raises EOFError.", "quantifier": "all combinations of limits, all outputs of an engine", "why_tests_cant": "The combinations of optional limits, and the ways an engine can end, are many; a test has an engine that answers.", "anchors": ["cshogi/usi/Engine.py: Engine.go"]}
{"id": "C83", "title": "InfoListener reports what the engine said about the move it plays", "statement": "After the answer `bestmove m`, InfoListener.pv is the variation of the last info line whose variation begins with m, InfoListener.score its score (the mate score with the sign of the side that mates, if it is a mate, of known length or not), and InfoListener.info has every number of that line under its name.", "quantifier": "all sequences of lines from an engine, all numbers and names, all variations", "why_tests_cant": "The line is taken apart by a regular expression with greedy parts and by a loop that guesses types; a test tries a few lines.", "anchors": ["cshogi/usi/Engine.py: InfoListener"]}
{"id": "C84", "title": "The match record keeps the engine's score and variation", "statement": "For an info line with a score and a variation usi_info_to_score gives the score (100000 for mate, with the sign of the side that mates). The comment that the match runner adds to a move in the CSA record is `** `, that score from Black's side, and the moves of the variation after the first in the CSA format, up to the first that is not legal. Read back from the record, the comment gives the move that score.", "quantifier": "all positions, all info lines with legal or partly legal variations, all scores in the range of int", "why_tests_cant": "It combines a greedy regular expression, the rules of the game and the CSA parser; a test follows one line through them.", "anchors": ["cshogi/cli.py: usi_info_to_score, usi_info_to_csa_comment", "cshogi/CSA.py: Exporter.move", "src/parser.h: parse_csa"]}
{"id": "C85", "title": "The mate search finds every forced mate within its depth", "statement": "is_mate(2 n) answers true whenever the side to move is in check and, whatever it replies, can be mated by a sequence of checks within 2 n plies; mate_move(2 n + 1) answers with a move whenever some legal move starts such a mate. A position that is_mate(2) calls lost is also called lost by is_mate(4).", "quantifier": "all regular positions and histories, all depths", "why_tests_cant": "Mate problems used as tests are found or not found for reasons that depend on generated checks, replies and repetition; only a proof shows that no check and no line is left out.", "anchors": ["src/mate.cpp", "src/generateMoves.cpp: generateCheckMoves", "src/cshogi.h: mateMove, is_mate"]}
{"id": "C86", "title": "A whole CSA file is read back as it was written", "statement": "Games written with CSA.Exporter to one file, each with version, names, information, a comment, a start given as nothing, a board or a position text, moves with times and comments and any separator, and an end, are read back by Parser.parse_file as the same games in the same order, each with the same version, names, information, comment, start, moves, times, comments of the moves, evaluations, end and winner.", "quantifier": "all lists of games, all headers, all starts, all legal move sequences, all times and comments", "why_tests_cant": "The header, comment and separator texts are free and may look like other lines of the format; a test tries a few of them.", "anchors": ["cshogi/CSA.py: Exporter.info, move, endgame", "cshogi/_cshogi.pyx: Parser.parse_str, parse_file, var_info, comments", "src/parser.h: parse_csa"]}
{"id": "C87", "title": "Board.to_bod shows the position and the last move", "statement": "Board.to_bod returns a diagram from which the placement, both hands and the side to move can be read back, leaves the board exactly as it was, and after at least one move ends with a line that gives the number of the last move, the player, the destination, whether the move before went to the same square, and the piece with the words needed to tell it from other moves.", "quantifier": "all positions reachable by legal play, all last moves, with and without passes", "why_tests_cant": "Placements, hands up to eighteen pawns and the cases of the move text multiply; a test looks at a few diagrams.", "anchors": ["cshogi/_cshogi.pyx: Board.to_bod", "cshogi/KIF.py: board_to_bod, move_to_bod", "cshogi/KI2.py: move_to_ki2"]}
{"id": "C88", "title": "Ratings and summaries of game servers are read from CSA records", "statement": "In a CSA record, the comment line 'black_rate:NAME:R or 'white_rate:NAME:R sets the rating of that side to R and nothing else, and after a line 'summary:REASON:NAME RESULT:NAME RESULT the winner reported by the parser is the one the line names, while moves, times, evaluations and names stay as they were.", "quantifier": "all records read so far, both sides, all names, ratings, reasons and results", "why_tests_cant": "Records of finished games mostly end by resignation, where the summary is not needed; the other reasons are rare.", "anchors": ["src/parser.h: __Parser::parse_csa", "cshogi/_cshogi.pyx: Parser.ratings, win, endgame"]}
{"id": "C89", "title": "Board.to_svg draws the position", "statement": "The picture returned by to_svg shows every piece exactly once, on the square that the coordinates of the picture name, with the piece's name and upside down if it is White's; beside the board, for each player, the pieces in hand with their numbers, one above the other and inside the page; and, given a move, its destination and origin coloured. The picture shown by a notebook marks the last move of the history, and from the picture one can tell the side to move.", "quantifier": "all positions that arise, with at most 18 pieces of a kind in a hand, all moves given as last move, all histories", "why_tests_cant": "Pictures are looked at, not tested; the sizes depend on how many kinds and numbers are in hand, and passes are hardly ever drawn.", "anchors": ["cshogi/_cshogi.pyx: Board.to_svg, Board._repr_svg_"]}
{"id": "C90", "title": "ShogiVecEnv plays its games independently of each other", "statement": "Every game of a ShogiVecEnv runs exactly as if it were played alone with its own moves and reset whenever it is over, with the same rewards; when step raises, no game has changed; every game has to be given its move.", "quantifier": "any number of games, all sequences of calls of step with any moves", "why_tests_cant": "Games end at different times and the mix of finished, refused and running games is different in every call.", "anchors": ["cshogi/gym_shogi/envs/shogi_vec_env.pyx: ShogiVecEnv.step, reset", "cshogi/gym_shogi/envs/shogi_env.pyx: ShogiEnv.step, reset"]}
{"id": "C91", "title": "Match statistics describe the games played", "statement": "Given the numbers of games won, lost and drawn, Elo.point_ratio and draw_ratio are the points per game and the share of draws; Elo.diff is the rating difference whose expected score is the score of the match, changes sign when the players are exchanged and grows with the score; Elo.error_margin is half the distance between the ratings at a fixed number of standard deviations around the score and exists for every match; Elo.los is the normal probability that the first player is better, between 0 and 100, and exists for every match; the line printed by the match runner gives these numbers, the draws as a percentage.", "quantifier": "all numbers of games won, lost and drawn", "why_tests_cant": "The values are real numbers from logarithms and the error function, and the cases that raise depend on the mix of results.", "anchors": ["cshogi/elo.py: Elo", "cshogi/cli.py: main, lines 507-514"]}
{"id": "C92", "title": "legal_moves can be read while the board is played on", "statement": "Reading board.legal_moves or board.pseudo_legal_moves to the end gives every move exactly once and then nothing more, len does not change while it is read, and pushing and popping the moves on the same board meanwhile, to any depth, visits every line of legal moves exactly once and leaves the board as it was.", "quantifier": "all positions that arise, all depths, any number of further reads", "why_tests_cant": "The number of lines grows exponentially with the depth; tests compare a few totals.", "anchors": ["cshogi/_cshogi.pyx: LegalMoveList, PseudoLegalMoveList", "src/cshogi.h: __LegalMoveList, __PseudoLegalMoveList", "src/generateMoves.hpp: MoveList", "src/cshogi.h: push, pop"]}
{"id": "C93", "title": "MultiPVListener reports the last variation of every number", "statement": "After an engine's output, MultiPVListener.info has one entry for each number given to a variation, in increasing order, and the entry shows the numbers and the moves of the last line with that number.", "quantifier": "all sequences of info lines with numbers, scores and moves, and other lines", "why_tests_cant": "Engines mix lines, repeat and reorder numbers, and leave out or add words in many ways.", "anchors": ["cshogi/usi/Engine.py: MultiPVListener, InfoListener._split_info"]}
{"id": "C94", "title": "The web page of a match shows the game", "statement": "While a match runs, the web page shows the moves made so far, in order and numbered from 1, each with the sign of the side that made it, the move in KIF notation with its code, the seconds used, the score from Black's side and the announced variation move by move; it asks a player on the page for a move exactly while that player is to move; when the game is decided, one more entry names the result.", "quantifier": "all starting positions of the match, all move limits, with and without clocks, all replies of the two players with all lines of information", "why_tests_cant": "There are no tests of the web page; the entries depend on every position of the game and on the variations that engines announce.", "anchors": ["cshogi/web/app.py: match, usi_info_to_score, usi_info_to_pv, run", "cshogi/KIF.py: move_to_kif"]}
{"id": "C95", "title": "Opening a CSA record on the web page shows the recorded game", "statement": "A game written with the CSA exporter, alone or first in a file, and opened on the web page is shown as it was played: one entry per move, numbered from 1, with the sign of the side that made the move, the move in KIF notation and its code, the seconds, the recorded evaluation and the recorded variation in KIF notation; one more entry names the side to move and how the game ended.", "quantifier": "all starting positions in order, all sequences of legal moves, times and one-line comments, all endings, all further games in the file", "why_tests_cant": "There are no tests of the web page; the entries depend on every position of the game, on what the exporter writes, on how the parser splits comments, and on the position in which each variation is read.", "anchors": ["cshogi/web/app.py: run (branch csa), match data", "cshogi/CSA.py: Exporter, JAPANESE_END_GAMES", "cshogi/KIF.py: move_to_kif", "src/parser.h: parse_csa_str"]}
{"id": "C96", "title": "The history of a board is the game that stands", "statement": "After any sequence of push with legal moves, pop, push_pass and pop_pass, history lists exactly the moves and passes that have not been taken back, in order; peek is the last of them (0 if there is none) and is what pop returns; move_number is the first number plus the number of moves, not passes, that stand; the board shows the position these moves and passes lead to; is_game_over is true exactly if no legal move is left.", "quantifier": "all starting positions in order, all sequences of these operations of any length", "why_tests_cant": "Tests play a few fixed games; the number of sequences with moves taken back and passes in between is unbounded.", "anchors": ["src/cshogi.h: push, pop, peek, push_pass, pop_pass, get_history, is_game_over, ply", "cshogi/_cshogi.pyx: Board.history, Board.peek, Board.pop, Board.move_number"]}
{"id": "C97", "title": "All ways of pushing a move play the same move", "statement": "A legal move handed to push as the integer made by move or drop_move, to push_usi or push_csa as its text, to push_move16 as its 16-bit number or to push_psv as its number in the YaneuraOu format is played identically: each returns the same integer, the boards and histories afterwards are equal, and the board shows the position after the move. A whole game may be handed over with the formats mixed. What is not a legal move is answered with 0 and leaves the board as it was.", "quantifier": "all positions reached by the rules, all legal moves, all games, all choices of a format for each move, all texts and numbers", "why_tests_cant": "Tests push a few moves in one format at a time; the five readers are separate code and must agree on every move of every position.", "anchors": ["cshogi/_cshogi.pyx: Board.push, push_usi, push_csa, push_move16, push_psv", "src/cshogi.h: move, drop_move, move_from_usi, move_from_csa, move_from_move16, move_from_psv", "src/move.hpp: move16toMove"]}
{"id": "C98", "title": "A session with an engine keeps in step", "statement": "In a session with a USI engine made of calls of connect, usi, setoption, isready, usinewgame, position, go, go_mate, ponderhit, stop, gameover and quit, in any order and number, the engine hears exactly the command that each call stands for, and each call returns the engine's answer to that very call: go the move and the move to ponder on, go_mate the result of the search, usi the lines before usiok. Nothing the engine has written is left to be taken for the answer of a later call. Calls without a running engine raise, and after connect the name of the object is the name the engine gave.", "quantifier": "all engines that keep to the protocol, in all states; all sequences of calls with all arguments; whatever else the engine writes before an answer", "why_tests_cant": "Tests talk to one engine in one order. An answer left unread, or taken from an earlier command, shows only in particular orders of calls and with engines that write more or fewer lines.", "anchors": ["cshogi/usi/Engine.py: Engine.connect, usi, setoption, isready, usinewgame, position, go, go_mate, ponderhit, stop, gameover, quit"]}
{"id": "C99", "title": "A KIF record keeps what the engines said", "statement": "When KIF.Exporter.info is called after a move with the info line of the engine that made it, any number of times, the record written is read back by the KIF parser with the same moves and times, and the comment of each move has one line per call. That line says what the engine said, in the order in which it said it: the time to the nearest tenth of a second, the depth, the number of nodes, and the value or the mate counted for Black. A move without such a call has no comment.", "quantifier": "all games of legal moves, all info lines after every move, all values, depths, numbers of nodes and times", "why_tests_cant": "Tests compare one record with an expected text. Which side the value is counted for, the form of times near a full minute and signs of mates depend on values and move numbers that a sample does not cover.", "anchors": ["cshogi/KIF.py: Exporter.info, Exporter.move, Parser.parse_str"]}
{"id": "C100", "title": "The games of a match begin with the openings of the file", "statement": "When a match is played with a file of openings, one line `startpos moves ...` each, every game begins with the first `opening_moves` moves of one of them. The two games of a pair, with the colours exchanged, have the same opening, and in each pass through the file every opening is played as often as it stands there, with either engine as Black. With an index only that opening is played. The engines are told exactly the moves that were played, and the result of the game is the one that the rules give for the whole game, the opening included.", "quantifier": "all files of legal openings, all shufflings and indices, all limits on the opening moves, all answers of the engines", "why_tests_cant": "A test plays some games with one file. Which opening a game gets, and which colours, depends on the number of the game and on the length of the file, and the cut of the opening on every length.", "anchors": ["cshogi/cli.py: main (opening, opening_moves, opening_index)"]}
{"id": "C101", "title": "The PGN file of a match tells the match", "statement": "Whatever games are written to a PGN file with PGN.Exporter.tag_pair and movetext, one after the other, a reader of PGN finds exactly these games in this order, each with the event, place, date, round, players and result it was written with and with the moves of the game. In the file of a match game n has round n, the engine that moved first is called White, and whoever counts wins and draws by the tags gets the numbers that the match reports.", "quantifier": "all lists of games, all names and dates, all legal moves, with and without the moves", "why_tests_cant": "A test compares one file. Where one game ends and the next begins, and what a name does to the line it stands in, depends on all texts and on the breaks of the lines.", "anchors": ["cshogi/PGN.py: Exporter.tag_pair, Exporter.movetext", "cshogi/cli.py: main (pgn, no_pgn_moves)"]}
{"id": "C102", "title": "The game plays what the person on the web page sent", "statement": "When a person plays on the page of cshogi.web, the game takes as their move a text that was sent to /move with the number of the move to be made, and only one that stands for a move allowed by the rules; illegal moves are passed over, and a legal move that has been sent is played. This holds for every order in which the server's writes and the game's reads of the shared input happen. Requests cannot end the game or reach the other player except as moves.", "quantifier": "all positions, all sequences of requests, all interleavings of the two processes", "why_tests_cant": "The server and the game run at the same time and access the shared input in several steps. A test sees one order of the steps.", "anchors": ["cshogi/web/app.py: Human.go, human_move (/move), update (/update)", "cshogi/web/templates/board.html: human_move"]}
{"id": "C103", "title": "A league is fair and its table is right", "statement": "In a league of three engines run from the command line every two engines play the number of games asked for, each of them as often with Black as with White, and all pairs play the same openings in the same order. In every game of a match or a league each side has the options, byoyomi, time and increment given for its engine. The table shows for each pair the wins of both, the draws and the number of games, and the line after each round says how many games are finished. Options written as name:value with commas between them reach the engine as they were written.", "quantifier": "all numbers of games, all results, all lists of openings, all settings and option texts", "why_tests_cant": "A league takes hours with real engines; a test runs one with a fixed number of games. Settings that go to the wrong side, or a table that mixes two pairs, are hidden when the values are the same.", "anchors": ["cshogi/cli.py: __main__ (league matches, options), main"]}
{"id": "C104", "title": "The CSA record of a match tells its games", "statement": "The CSA file that a match run from the command line writes can be read back with the CSA parser, and game by game it gives: the two players, the starting position, the moves that were played including those of the opening, for every move of an engine the whole seconds it took, the last score it told as seen from Black and the rest of the variation it told, and the end and winner that the match counts. Keeping the record changes nothing in the games. With a directory, each game has its own file.", "quantifier": "all numbers of games, openings, clocks, lines told by the engines, and endings", "why_tests_cant": "The record depends on every line of two engines over whole games, on what was heard last before bestmove, on the clocks and on the way the game ends; rare ends such as perpetual checks are never reached in a test, and the lines heard differ with pondering.", "anchors": ["cshogi/cli.py: main, Listener, usi_info_to_score, usi_info_to_csa_comment", "cshogi/CSA.py: Exporter", "src/parser.h: parse_csa"]}
{"id": "C105", "title": "A game on the web page can be shown again from its CSA file", "statement": "When a game on the web page is kept in a CSA file, the page shows the game as it does without a file. The file opened on the page shows the game once more: the same numbers, moves, Japanese notation and scores as seen from Black, the same moves in the variations, the same seconds, and the same end with the same winner.", "quantifier": "all games of engines and persons on the web page, all lines told by the engines, times and endings", "why_tests_cant": "It composes the loop of the game, the listener, the comment in the file, the exporter, the CSA parser and the replay; each works alone, and the cases where the composition is wrong (a fraction of a second, a declaration, a game without moves, perpetual check) are seen only over all games.", "anchors": ["cshogi/web/app.py: match, run", "cshogi/cli.py: usi_info_to_csa_comment", "cshogi/CSA.py: Exporter, Parser, JAPANESE_END_GAMES"]}
{"id": "C106", "title": "Two engines in a match play each other as at a board", "statement": "In a game of a match run from the command line, the engine whose turn it is, and no other, is asked for each move. Before it searches it has been told all moves of the game, those of the opening included, so that an engine that sets up its board with cshogi has the position of the match before it, and it is told both clocks as they stand, its byoyomi and the increments. Its answer is what is played. So the game between two engines is the one that they would play at a board, and it ends as the rules say for that game.", "quantifier": "all pairs of engines (any state machines that follow the protocol), openings, clocks, and times taken", "why_tests_cant": "The claim is about every pair of programs and every course of a game; a test has one or two engines, and an engine that is told a wrong clock or a wrong position still answers.", "anchors": ["cshogi/cli.py: main", "cshogi/usi/Engine.py: position, go", "cshogi/_cshogi.pyx: Board.set_position"]}
{"id": "C107", "title": "Engines that ponder answer about the position on the board", "statement": "In a game of a match with pondering, an engine that has named the reply it expects is told the game with that reply and searches in the opponent's time. If the opponent plays the reply, the engine is told that its guess was right, and the answer it then gives is played: it is about the position on the board. If the opponent plays something else, the engine is stopped, its answer to the wrong position is thrown away, and it is asked anew with the moves of the game and the clocks. No engine is asked while an answer of it is outstanding, the answer to one question is never taken for the answer to another, and the two worker threads are enough. After the game no engine is left searching.", "quantifier": "all pairs of engines (any state machines that follow the protocol), guesses right and wrong or missing in any order, openings, clocks, and times taken", "why_tests_cant": "Five variables carry guesses and pending answers of two engines over the turns; whether they get mixed up depends on the order of right, wrong and missing guesses of both sides, and there are infinitely many.", "anchors": ["cshogi/cli.py: main", "cshogi/usi/Engine.py: go, ponderhit, stop", "cshogi/_cshogi.pyx: Board.set_position"]}
{"id": "C108", "title": "Every game of a match is played by the entrants' engines with their own settings", "statement": "In a match of several games run from the command line the entrants exchange colours after every game, unless this is switched off, and each has the same options, time, byoyomi and increment with either colour. Before a game each engine is started if it does not run, and it hears its own options, that it is to be ready, and that a game begins. Without keep_process every game is the one that the two newly started engines would play at a board: nothing is left of the games before. With keep_process a game is begun with the minds that the engines had at the end of the game before. After the game each engine is told how it ended, and the results of the match are the results of these games.", "quantifier": "all pairs of engines (any state machines that follow the protocol), numbers of games, options, openings, clocks and times taken, with and without exchange of the colours and with and without keep_process", "why_tests_cant": "What an engine has heard before a game depends on all games before; engines, options, clocks and processes are exchanged separately, and a mix-up shows only for engines and settings that differ.", "anchors": ["cshogi/cli.py: main", "cshogi/usi/Engine.py: connect, setoption, isready, usinewgame, gameover, quit"]}
{"id": "C109", "title": "Pieces in hand are read as they are written", "statement": "parse_pieces_in_hand of the KIF and KI2 parsers returns exactly the pieces that a text tells: for every kind in the text its number under its piece type, and no other entries, whatever the order of the kinds and whatever spaces stand between, before and behind them. What board_to_bod writes for the pieces in hand of any position is read as these pieces. The text is accepted exactly where parse_str accepts it as a line with pieces in hand; anything else raises ParserException.", "quantifier": "all texts, all hands, all positions", "why_tests_cant": "There are about 19 * 5^4 * 3^2 hands, more orders and spacings of them, and infinitely many texts that must be refused.", "anchors": ["cshogi/KIF.py: Parser.parse_pieces_in_hand, board_to_bod", "cshogi/KI2.py: Parser.parse_pieces_in_hand"]}
{"id": "C110", "title": "Squares, pieces and colours are taken apart and named consistently", "statement": "make_file and make_rank give the coordinates of every square, which determine it, and 80 - sq is the square turned by 180 degrees. SQUARE_NAMES[sq] is the digit of the file and the letter of the rank, and is what move_to_usi writes for the source and the target of a move. piece_to_piece_type of an entry of board.pieces is the number of the kind that stands there and 0 on an empty square; PIECE_SYMBOLS names it as SFEN does. Entry hp of board.pieces_in_hand counts the pieces of type hand_piece_to_piece_type(hp), named by HAND_PIECE_SYMBOLS and bounded by MAX_PIECES_IN_HAND. opponent(board.turn) is the turn after push and after push_pass.", "quantifier": "all positions, squares, colours, kinds of pieces and moves", "why_tests_cant": "The tables are finite, but that they fit the pieces, hands, turn and move texts of the board is a claim about all positions and all moves; hand pieces and piece types are numbered in different orders, so an exchange of gold and bishop shows only in positions that have them.", "anchors": ["cshogi/_cshogi.pyx: make_file, make_rank, piece_to_piece_type, hand_piece_to_piece_type, opponent, SQUARE_NAMES, PIECE_SYMBOLS, HAND_PIECE_SYMBOLS, MAX_PIECES_IN_HAND", "src/square.hpp: SquareToFile, SquareToRank", "src/piece.hpp: pieceToPieceType, HandPieceToPieceTypeTable"]}
{"id": "C111", "title": "A printed board shows its position", "statement": "repr(board) shows every square in the line of its rank, below the digit of its file, by three characters for what stands on it; below the board it lists the pieces in hand, Black's first, and the side to move. Two boards print alike exactly if they have the same pieces on the board and in hand and the same side to move. Read by CSA.Parser, the text sets up the same position.", "quantifier": "all positions that can occur in a game; the layout for all placements", "why_tests_cant": "Whether the text tells all positions apart, and which character stands where, is a claim about all placements and all hands.", "anchors": ["cshogi/_cshogi.pyx: Board.__repr__", "src/cshogi.h: dump", "src/position.cpp: Position::print, printHand"]}
{"id": "C112", "title": "FEATURES2_NUM follows the switch for the declaration planes", "statement": "After any sequence of calls of cshogi.dlshogi.use_nyugyoku_features, cshogi.dlshogi.FEATURES2_NUM is 119 if the planes were last switched on and 57 otherwise. Arrays with FEATURES1_NUM and FEATURES2_NUM planes are large enough: make_input_features writes nothing behind them, in any position. Switched off again, it writes as if the planes had never been on.", "quantifier": "all programs (sequences of calls and imports), all positions of one set of pieces", "why_tests_cant": "The claim is about all histories of a state that three modules share, and about writes outside an array, which a test does not see.", "anchors": ["cshogi/dlshogi/__init__.py: use_nyugyoku_features, FEATURES2_NUM, make_input_features", "cshogi/_cshogi.pyx: _dlshogi_use_nyugyoku_features, _dlshogi_FEATURES2_NUM", "src/cshogi.h: __dlshogi_use_nyugyoku_features, __dlshogi_get_features2_num, _dlshogi_make_input_features"]}
