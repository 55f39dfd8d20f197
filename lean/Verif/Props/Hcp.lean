import Verif.Lemmas.HcpOver
import Verif.Props.Legal

/-!
# Huffman-coded positions and packed sfens: C33, C34, C35, C36, C49, C50
-/

namespace Verif
open Spec Bitboard Position

/-- Both kings are on the board. -/
def BothKings (q : Pos) : Prop := ∀ c, ∃ s, q.board s = some (c, .king)

/-- The shared part of C33 and C34: the bytes written are read back to the same placement, hands and turn, with all views,
keys and checkers set up anew. -/
theorem codec_round (Z : Zobrist) {T : CodeTables} (hT : Good T) {p : Position} (h : Consistent p) (hs : (absPos p).InSet)
    (hk : BothKings (absPos p)) :
    ∃ bs, encodePos T p = .ok bs ∧ 8 * bs.data + bs.curr = 256 ∧
      ∃ p', decodePos Z T bs.buf = .ok p' ∧ absPos p' = absPos p ∧ Consistent p' ∧ KeysOK Z p' ∧
        p'.st.checkersBB = p'.findCheckers ∧ p'.gamePly = 1 ∧ p'.prev = [] := by
  obtain ⟨kb, hb⟩ := hk .black
  obtain ⟨kw, hw⟩ := hk .white
  obtain ⟨bs, e, w⟩ := encode_spec hT h hs hb hw
  have hl := posBits_length hT h hs hb hw
  exact ⟨bs, e, by rw [w.pos, hl], decode_spec Z hT h hs hb hw (w.read hl)⟩

/-- **C33**: `set_hcp` of `to_hcp` restores placement, hands and turn, for every position with both kings and at most one
set of pieces; the decoded board is fully consistent and has the same key. -/
theorem C33_hcp_round_trip (Z : Zobrist) {p : Position} (h : Consistent p) (hs : (absPos p).InSet) (hk : BothKings (absPos p)) :
    ∃ bs, encodePos hcpTables p = .ok bs ∧
      ∃ p', decodePos Z hcpTables bs.buf = .ok p' ∧ absPos p' = absPos p ∧ Consistent p' ∧ KeysOK Z p' ∧
        p'.st.checkersBB = p'.findCheckers ∧ p'.gamePly = 1 ∧ p'.prev = [] := by
  obtain ⟨bs, e, -, r⟩ := codec_round Z good_hcp h hs hk
  exact ⟨bs, e, r⟩

/-- **C34**: the same for `set_psfen` and `to_psfen`. -/
theorem C34_psfen_round_trip (Z : Zobrist) {p : Position} (h : Consistent p) (hs : (absPos p).InSet) (hk : BothKings (absPos p)) :
    ∃ bs, encodePos psfenTables p = .ok bs ∧
      ∃ p', decodePos Z psfenTables bs.buf = .ok p' ∧ absPos p' = absPos p ∧ Consistent p' ∧ KeysOK Z p' ∧
        p'.st.checkersBB = p'.findCheckers ∧ p'.gamePly = 1 ∧ p'.prev = [] := by
  obtain ⟨bs, e, -, r⟩ := codec_round Z good_psfen h hs hk
  exact ⟨bs, e, r⟩

theorem bothKings_iff {q : Pos} : BothKings q ↔ ∀ c, 1 ≤ q.kings c := by
  unfold BothKings Pos.kings
  refine forall_congr' fun c => ?_
  rw [Nat.one_le_iff_ne_zero, ← Nat.pos_iff_ne_zero, List.countP_pos_iff]
  simp [List.mem_finRange]

/-- **C33**, **C34** along a game: from any consistent start with both kings, after any sequence of applicable pushes, pops
and passes, both formats still round-trip. -/
theorem C33_history (Z : Zobrist) (p : Position) (hp : Inv Z p) (hk : BothKings (absPos p)) (ops : List Op)
    (ho : AllApplicable Z ⟨p, []⟩ ops) :
    ∃ b, Board.run Z ⟨p, []⟩ ops = some b ∧
      (∃ bs, encodePos hcpTables b.pos = .ok bs ∧ ∃ p', decodePos Z hcpTables bs.buf = .ok p' ∧ absPos p' = absPos b.pos) ∧
      ∃ bs, encodePos psfenTables b.pos = .ok bs ∧ ∃ p', decodePos Z psfenTables bs.buf = .ok p' ∧ absPos p' = absPos b.pos := by
  obtain ⟨b, e, hb⟩ := (Chain.base (p0 := p) p.st.continuousCheck hp).run ops ho
  have hk' : BothKings (absPos b.pos) := by
    rw [bothKings_iff] at hk ⊢
    intro c
    rw [(chain_material hb).2 c]
    exact hk c
  obtain ⟨bs1, a1, p1, a2, a3, -⟩ := C33_hcp_round_trip Z hb.inv.views hb.inv.inSet hk'
  obtain ⟨bs2, c1, p2, c2, c3, -⟩ := C34_psfen_round_trip Z hb.inv.views hb.inv.inSet hk'
  exact ⟨b, e, ⟨bs1, a1, p1, a2, a3⟩, bs2, c1, p2, c2, c3⟩

/-- **C35**: both encoders write exactly 256 bits: they stay inside the buffer and end exactly at its end. -/
theorem C35_exactly_256 {p : Position} (h : Consistent p) (hs : (absPos p).InSet) (hk : BothKings (absPos p)) :
    (∃ bs, encodePos hcpTables p = .ok bs ∧ bs.data = 32 ∧ bs.curr = 0) ∧
    ∃ bs, encodePos psfenTables p = .ok bs ∧ bs.data = 32 ∧ bs.curr = 0 := by
  have key : ∀ {T : CodeTables}, Good T → ∃ bs, encodePos T p = .ok bs ∧ bs.data = 32 ∧ bs.curr = 0 := by
    intro T hT
    obtain ⟨kb, hb⟩ := hk .black
    obtain ⟨kw, hw⟩ := hk .white
    obtain ⟨bs, e, w⟩ := encode_spec hT h hs hb hw
    have h1 := w.pos
    rw [posBits_length hT h hs hb hw] at h1
    have h2 := w.lt
    exact ⟨bs, e, by omega, by omega⟩
  exact ⟨key good_hcp, key good_psfen⟩

/-- **C36** (hcp): positions with the same bytes are the same position. -/
theorem C36_hcp_injective {p q : Position} (hp : Consistent p) (hps : (absPos p).InSet) (hpk : BothKings (absPos p))
    (hq : Consistent q) (hqs : (absPos q).InSet) (hqk : BothKings (absPos q)) {a b : BitStream}
    (ha : encodePos hcpTables p = .ok a) (hb : encodePos hcpTables q = .ok b) (e : a.buf = b.buf) : absPos p = absPos q := by
  obtain ⟨a', ea, p', dp, e1, -⟩ := C33_hcp_round_trip zeroKeys hp hps hpk
  obtain ⟨b', eb, q', dq, e2, -⟩ := C33_hcp_round_trip zeroKeys hq hqs hqk
  rw [ha] at ea; cases ea
  rw [hb] at eb; cases eb
  rw [e, dq] at dp; cases dp
  rw [← e1, e2]

/-- **C36** (psfen). -/
theorem C36_psfen_injective {p q : Position} (hp : Consistent p) (hps : (absPos p).InSet) (hpk : BothKings (absPos p))
    (hq : Consistent q) (hqs : (absPos q).InSet) (hqk : BothKings (absPos q)) {a b : BitStream}
    (ha : encodePos psfenTables p = .ok a) (hb : encodePos psfenTables q = .ok b) (e : a.buf = b.buf) : absPos p = absPos q := by
  obtain ⟨a', ea, p', dp, e1, -⟩ := C34_psfen_round_trip zeroKeys hp hps hpk
  obtain ⟨b', eb, q', dq, e2, -⟩ := C34_psfen_round_trip zeroKeys hq hqs hqk
  rw [ha] at ea; cases ea
  rw [hb] at eb; cases eb
  rw [e, dq] at dp; cases dp
  rw [← e1, e2]

/-! The start position meets the hypotheses, and so does the check position `evModel` with pieces in hand and most of the
set in the box. -/

example : Consistent (startModel zeroKeys) ∧ (absPos (startModel zeroKeys)).InSet ∧ BothKings (absPos (startModel zeroKeys)) := by
  obtain ⟨h1, h2, h3⟩ := startModel_ok zeroKeys
  exact ⟨h1.views, h1.inSet, fun c => (h3.kings c).imp fun k hk => (hk k).mpr rfl⟩

/-! ### C49: positions without both kings -/

/-- **C49** fails: `to_hcp` and `to_psfen` of any position that lacks a king (mate problems usually have only the defender's
king) write past the 32-byte buffer. -/
theorem C49_fails {p : Position} (h : Consistent p) (hs : (absPos p).InSet) {c : Color}
    (hk : ∀ s, (absPos p).board s ≠ some (c, .king)) : encodePos hcpTables p = .ub ∧ encodePos psfenTables p = .ub :=
  ⟨encode_over h hs (posBits_over good_hcp h hs hk), encode_over h hs (posBits_over good_psfen h hs hk)⟩

/-- **C49**, the part that holds: within one set of pieces the encoders stay inside the buffer exactly for the positions
with both kings. -/
theorem C49_in_bounds_iff_partial {p : Position} (h : Consistent p) (hs : (absPos p).InSet) :
    (encodePos hcpTables p ≠ .ub ↔ BothKings (absPos p)) ∧ (encodePos psfenTables p ≠ .ub ↔ BothKings (absPos p)) := by
  have neg : ¬ BothKings (absPos p) → ∃ c, ∀ s, (absPos p).board s ≠ some (c, .king) := by
    intro hn
    by_contra hc
    apply hn
    intro c
    by_contra hx
    exact hc ⟨c, fun s e => hx ⟨s, e⟩⟩
  constructor
  · constructor
    · intro hu
      by_contra hn
      obtain ⟨c, hc⟩ := neg hn
      exact hu (C49_fails h hs hc).1
    · intro hk
      obtain ⟨⟨bs, e, -⟩, -⟩ := C35_exactly_256 h hs hk
      rw [e]; intro x; cases x
  · constructor
    · intro hu
      by_contra hn
      obtain ⟨c, hc⟩ := neg hn
      exact hu (C49_fails h hs hc).2
    · intro hk
      obtain ⟨-, bs, e, -⟩ := C35_exactly_256 h hs hk
      rw [e]; intro x; cases x

/-- A mate problem: White's king alone on 5a against a pawn on 5c and a gold in hand. -/
def tsumeBoard (s : Square) : Option (Color × Kind) :=
  if s = 36 then some (.white, .king) else if s = 38 then some (.black, .pawn) else none

/-- Its model. -/
def tsumeModel : Position := setPieces zeroKeys clear (fun s => pieceCode (tsumeBoard s))
  (fun c i => if c = .black ∧ i = 4 then 1 else 0)

/-- The mate problem is a consistent position within one set, without a black king. -/
example : Consistent tsumeModel ∧ (absPos tsumeModel).InSet ∧ (∀ s, (absPos tsumeModel).board s ≠ some (.black, .king)) ∧
    encodePos hcpTables tsumeModel = .ub := by
  have hone : OneKing tsumeBoard := by
    intro c s t h1 h2
    have key : ∀ s, (∃ c, tsumeBoard s = some (c, .king)) → s = 36 := by
      intro s ⟨c, e⟩
      unfold tsumeBoard at e
      split at e
      · assumption
      · split at e
        · simp at e
        · cases e
    rw [key s ⟨c, h1⟩, key t ⟨c, h2⟩]
  obtain ⟨h1, -, h3, -⟩ := setPieces_spec zeroKeys clear
    { board := tsumeBoard, hand := fun c h => if c = .black ∧ h = .gold then 1 else 0, turn := .black } hone
    (by intro c h; cases c <;> cases h <;> decide) (fun c i => if c = .black ∧ i = 4 then 1 else 0)
    (by intro c h; cases c <;> cases h <;> rfl)
  have hin : (absPos tsumeModel).InSet := by
    unfold tsumeModel
    rw [show (fun s => pieceCode (tsumeBoard s)) = fun s => pieceCode (tsumeBoard s) from rfl, h3]
    intro h
    cases h <;> decide +kernel
  have hk : ∀ s, (absPos tsumeModel).board s ≠ some (.black, .king) := by
    unfold tsumeModel
    rw [h3]
    intro s
    show tsumeBoard s ≠ _
    revert s; decide +kernel
  exact ⟨h1, hin, hk, (C49_fails h1 hin hk).1⟩

/-! ### C50: arbitrary bytes -/

/-- All ones. -/
def onesBuf : Fin 32 → BitVec 8 := fun _ => 0xff#8

/-- Kings on squares 0 and 1, a black lance on square 2, everything else zero. -/
def lanceBuf : Fin 32 → BitVec 8
  | 0 => 0x00#8 | 1 => 0x81#8 | 2 => 0x01#8 | _ => 0#8

/-- Kings on squares 0 and 1 and otherwise zero. -/
def pawnBuf : Fin 32 → BitVec 8
  | 1 => 0x01#8 | _ => 0#8

/-- **C50** fails: some 32-byte inputs make `set_hcp` (and `set_psfen`) index the board outside its 81 squares, others make
it read past the end of the data. -/
theorem C50_fails (Z : Zobrist) :
    decodePos Z hcpTables onesBuf = .ub ∧ decodePos Z psfenTables onesBuf = .ub ∧
    decodePos Z hcpTables lanceBuf = .ub ∧ decodePos Z psfenTables lanceBuf = .ub := by
  have key : ∀ T buf, (decodeBody T buf).isUb = true → decodePos Z T buf = .ub := by
    intro T buf h
    unfold decodePos
    rw [Out.isUb_iff.mp h]; rfl
  refine ⟨key _ _ ?_, key _ _ ?_, key _ _ ?_, key _ _ ?_⟩ <;> decide +kernel

/-- **C50** fails also without an access out of range: 54 pawn codes overflow the pawn counter of the packed hand, and the
board is accepted with 22 pawns in hand. -/
theorem C50_overflow (Z : Zobrist) : ∃ p', decodePos Z hcpTables pawnBuf = .ok p' ∧ (p'.hand .black).numOf 0 = 22 ∧ ¬ (p'.hand .black).WF := by
  have key : (match decodeBody hcpTables pawnBuf with
      | .ok p => decide ((p.hand .black).numOf 0 = 22 ∧ (p.hand .black).toNat = 54)
      | _ => false) = true := by decide +kernel
  rcases h : decodeBody hcpTables pawnBuf with p | _ | _ <;> rw [h] at key
  case error => cases key
  case ub => cases key
  obtain ⟨h1, h2⟩ := of_decide_eq_true key
  refine ⟨finish Z { p with gamePly := 1 }, by unfold decodePos; rw [h]; rfl, h1, ?_⟩
  show ¬ (p.hand .black).WF
  have : p.hand .black = 54#32 := BitVec.eq_of_toNat_eq h2
  rw [this]
  unfold Hand.WF
  decide

/-- **C50**, the part that holds: whenever decoding returns and the kings were put on different squares, the board array and
the bitboards agree, and the keys are those of the position. -/
theorem C50_views_partial (Z : Zobrist) (T : CodeTables) (buf : Fin 32 → BitVec 8) (hk : KingsApart buf) (p' : Position)
    (h : decodePos Z T buf = .ok p') : Raw p' (absPos p').board ∧ KeysOK Z p' := decode_raw Z T buf hk p' h

end Verif
