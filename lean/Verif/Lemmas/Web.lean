import Verif.Props.UsiComment
import Verif.Props.MatchCases
import Verif.Lemmas.KifMoves
import Verif.Model.Web
import Verif.Spec.Web

/-!
# Lemmas about the web application
-/

namespace Verif.Web
open Spec Bitboard Position

/-! ### Texts of moves -/

/-- The square the last move went to. -/
def LastIs (b : Board) : Option Square → Prop
  | none => Kif.peek b = 0#32
  | some t => Kif.peek b ≠ 0#32 ∧ (Kif.peek b).dst = t.val

theorem squareName_page : ∀ t : Square, Kif.squareName t.val = some (Spec.Web.square t) := by decide +kernel

theorem fromName_page : ∀ s : Square, Kif.fromName s.val =
    some [("123456789".toList).getD (s.val / 9) ' ', ("123456789".toList).getD (s.val % 9) ' '] := by decide +kernel

theorem destName_page {b : Board} {last : Option Square} (hl : LastIs b last) {m : Move} {t : Square} (ht : m.dst = t.val) :
    Kif.destName m (Kif.peek b) = some (Spec.Web.place last t) := by
  unfold Kif.destName Spec.Web.place
  rw [ht, squareName_page, Option.map_some]
  congr 1
  cases last with
  | none =>
    rw [if_neg (fun h => h.1 hl), if_neg (by simp)]
  | some u =>
    obtain ⟨h1, h2⟩ := hl
    by_cases e : u = t
    · subst e
      rw [if_pos ⟨h1, h2⟩, if_pos rfl]; rfl
    · rw [if_neg (fun h => e (Fin.ext (h2.symm.trans h.2))), if_neg (fun h => e (Option.some.inj h))]

theorem kif_text {b : Board} (hp : Consistent b.pos) {mv : Mv} (hm : (absPos b.pos).Pseudo mv) {last : Option Square} (hl : LastIs b last) :
    Kif.moveToKif (encode b.pos mv) (Kif.peek b) = some (Spec.Web.kifMove (absPos b.pos) last mv) := by
  cases mv with
  | move f t pro =>
    obtain ⟨h1, h2, h3⟩ := src_eq b.pos f t pro
    have hd : (boardMove b.pos.piece f t pro).isDrop = false := encode_isDrop b.pos f t pro
    have hpt : (boardMove b.pos.piece f t pro).pieceTypeFrom = pieceType (b.pos.piece f) := by
      have hf := C01_board_move_fields b.pos.piece f t pro
      simp only [readBoardMove, Prod.mk.injEq] at hf
      exact hf.2.2.1
    obtain ⟨k, hk, -⟩ := hm
    have hcode : pieceType (b.pos.piece f) = k.code := by
      rw [hp.code f, hk]
      generalize (absPos b.pos).turn = c
      cases c <;> cases k <;> rfl
    have hs : Kif.pieceSymbol k.code = some [Spec.Web.name k] := by cases k <;> decide
    unfold Kif.moveToKif Spec.Web.kifMove
    simp only [encode, destName_page hl h2, Option.bind_some, hd, hpt, hcode, hs, h1, fromName_page, h3, Option.map_some, hk, Option.getD_some]
    rfl
  | drop h t =>
    obtain ⟨-, h1, hd, h2, -⟩ := drop_fields h t
    have hh : (makeDropMove h.kind.code t.val).handPieceDropped = h.code := by
      unfold Move.handPieceDropped
      rw [h2]
      cases h <;> rfl
    have hs : Kif.handChars[h.code]? = some (Spec.Web.name h.kind) := by cases h <;> decide
    unfold Kif.moveToKif Spec.Web.kifMove
    simp only [encode, destName_page hl h1, Option.bind_some, hd, if_true, hh, hs, Option.map_some]

theorem lastIs_push {Z : Zobrist} {b b' : Board} {mv : Mv} (hm : (absPos b.pos).Pseudo mv) (h : b.push Z (encode b.pos mv) = some b') :
    LastIs b' (some (Spec.Web.dest mv)) := by
  unfold LastIs
  rw [Kif.peek_push h]
  refine ⟨encode_ne_zero hm, ?_⟩
  cases mv with
  | move f t pro => exact (src_eq b.pos f t pro).2.1
  | drop k t => exact (drop_fields k t).2.1

theorem symbol_sign (c : Color) : symbol c = Spec.Web.sign c := by cases c <;> rfl

/-! ### Variations -/

theorem legal_true {Z : Zobrist} {p : Position} (hg : Csa.Good Z p) {mv : Mv} (hm : (absPos p).Legal mv) : p.isLegal (encode p mv) = some true := by
  obtain ⟨l, e, hl⟩ := C27_listed_partial _ hg.inv.views hg.check hg.regular
  obtain ⟨l', e', -, hmem⟩ := genLegal_spec hg.inv.views hg.check hg.regular
  rw [e] at e'; cases e'
  exact hl _ ((hmem _).mpr ⟨mv, rfl, hm⟩)

theorem pvLoop_line {Z : Zobrist} (bad : List Mv) : ∀ (mvs : List Mv) {b : Board} {last : Option Square}, Csa.Good Z b.pos → LastIs b last →
    (absPos b.pos).Line mvs → Usi.Ends ((absPos b.pos).after mvs) bad →
    pvLoop Z b ((mvs ++ bad).map usiText) = .ok (Spec.Web.kifLine (absPos b.pos) last mvs)
  | [], b, last, hg, _, _, hb => by
    cases bad with
    | nil => rfl
    | cons mv bad =>
      obtain ⟨x, j1, j2, -⟩ := C27_loose b.pos hg.inv.views hg.check hg.regular mv
      cases x with
      | true => exact absurd (j2 rfl) hb
      | false =>
        show pvLoop Z b (usiText mv :: bad.map usiText) = _
        rw [pvLoop, usi_text_not j1]
        dsimp only
        rw [Match.isLegal_zero]
        rfl
  | mv :: mvs, b, last, hg, hlast, hl, hb => by
    obtain ⟨hm, hl⟩ := hl
    obtain ⟨p', e1, g1, a1⟩ := hg.doMove hm
    have hlegal := legal_true hg hm
    have hpush : b.push Z (encode b.pos mv) = some ⟨p', .move (encode b.pos mv) :: b.hist⟩ := by
      unfold Board.push; rw [e1]; rfl
    have ih := pvLoop_line bad mvs (b := ⟨p', .move (encode b.pos mv) :: b.hist⟩) g1 (lastIs_push hm.1.1 hpush)
      (by show (absPos p').Line mvs; rw [a1]; exact hl) (by show Usi.Ends ((absPos p').after mvs) bad; rw [a1]; exact hb)
    show pvLoop Z b (usiText mv :: (mvs ++ bad).map usiText) = _
    rw [pvLoop, usi_text hlegal]
    dsimp only
    rw [hlegal]
    dsimp only
    rw [kif_text hg.inv.views hm.1.1 hlast]
    dsimp only
    rw [hpush]
    dsimp only
    rw [ih, symbol_sign]
    show Out.ok _ = Out.ok (_ :: _)
    rw [show absPos (Board.pos ⟨p', .move (encode b.pos mv) :: b.hist⟩) = (absPos b.pos).play mv from a1]
    rfl

theorem joined_intercalate : ∀ ws : List (List Char), Usi.joined ws = [' '].intercalate ws
  | [] => rfl
  | [w] => by simp [Usi.joined]
  | w :: v :: ws => by
    rw [Usi.joined, joined_intercalate (v :: ws)]
    · simp [List.intercalate, List.intersperse]
    · simp

/-! ### What a player says -/

/-- A line of information: numbers and a score, a first move and further ones that are legal, and then perhaps others. -/
structure Info where
  before : List (List Char × Int)
  score : Score
  after : List (List Char × Int)
  first : Mv
  more : List Mv
  bad : List Mv

/-- It is one in the position `P`. -/
structure Info.OK (P : Pos) (i : Info) : Prop where
  names : ∀ x ∈ i.after, NumberName x.1
  legal : P.Line (i.first :: i.more)
  ends : Usi.Ends (P.after (i.first :: i.more)) i.bad

/-- An answer with its line of information, if any, and the seconds taken. -/
structure Told where
  answer : Answer
  info : Option Info
  secs : Int

def infoChars : Option Info → List Char
  | none => []
  | some i => Usi.infoText (Usi.movesLine i.before i.score i.after i.first (i.more ++ i.bad))

def replyOf (t : Told) : Reply := ⟨Match.answerText t.answer, infoChars t.info, t.secs⟩

/-- The same without scores and times. -/
def said (t : Told) : Said := ⟨t.answer, none, 0⟩

/-- A move code tells where the move goes and comes from and whether it promotes, or which piece is dropped. -/
def Codes (m : Move) (mv : Mv) : Prop :=
  m.dst = (Spec.Web.dest mv).val ∧ match mv with
    | .move s _ pro => m.isDrop = false ∧ m.src = s.val ∧ m.isPromotion = pro
    | .drop h _ => m.isDrop = true ∧ m.pieceTypeDropped = h.kind.code

theorem codes_encode (p : Position) (mv : Mv) : Codes (encode p mv) mv := by
  cases mv with
  | move f t pro =>
    obtain ⟨h1, h2, h3⟩ := src_eq p f t pro
    exact ⟨h2, encode_isDrop p f t pro, h1, h3⟩
  | drop k t => exact ⟨(drop_fields k t).2.1, (drop_fields k t).2.2.1, (drop_fields k t).2.2.2.1⟩

/-- The entry for a move says what it should: the number, side and move, the seconds, the score from Black's side and the variation. -/
structure Right (P : Pos) (last : Option Square) (n : Nat) (mv : Mv) (info : Option Info) (secs : Int) (e : Entry) : Prop where
  number : e.number = n
  text : e.text = Spec.Web.sign P.turn :: Spec.Web.kifMove P last mv
  secs : e.secs = secs
  move : Codes e.move mv
  eval : match info with
    | none => e.eval = none
    | some i => ∃ v, i.score.Is 100000 v ∧ e.eval = some (Usi.fromBlack P.turn v)
  pv : e.pv = match info with
    | none => []
    | some i => [' '].intercalate (Spec.Web.kifLine P last (i.first :: i.more))

theorem entry_right {Z : Zobrist} {b : Board} (hg : Csa.Good Z b.pos) {last : Option Square} (hl : LastIs b last) {mv : Mv}
    (hm : (absPos b.pos).Legal mv) {n : Nat} (hn : b.pos.gamePly = n) (hturn : b.pos.turn = if n % 2 = 1 then .black else .white)
    (t : Told) (hi : ∀ i, t.info = some i → i.OK (absPos b.pos)) :
    ∃ e, entry Z b (encode b.pos mv) (replyOf t) = .ok e ∧ Right (absPos b.pos) last n mv t.info t.secs e := by
  have hsym : numberSymbol b.pos.gamePly = Spec.Web.sign b.pos.turn := by
    unfold numberSymbol
    rw [hn, hturn]
    by_cases h : n % 2 = 1
    · rw [if_pos h, if_pos (by omega)]; rfl
    · rw [if_neg h, if_neg (by omega)]; rfl
  have htext := kif_text hg.inv.views hm.1.1 hl
  have hinfo : (replyOf t).info = infoChars t.info := rfl
  cases ht : t.info with
  | none =>
    have e1 : Usi.infoScore (replyOf t).info = .ok none := by rw [hinfo, ht]; decide +kernel
    have e2 : pvText Z b (replyOf t).info = .ok [] := by
      rw [hinfo, ht]
      unfold pvText
      rw [show Usi.usiInfo (infoChars none) = none by decide +kernel]
    refine ⟨⟨n, Spec.Web.sign b.pos.turn :: Spec.Web.kifMove (absPos b.pos) last mv, t.secs, encode b.pos mv, none, []⟩, ?_,
      ⟨rfl, rfl, rfl, codes_encode _ _, rfl, rfl⟩⟩
    unfold entry
    rw [e1, Out.bind, e2, Out.bind, htext, hsym, hn]
    rfl
  | some i =>
    have hok := hi i ht
    obtain ⟨v, e1, hv⟩ := Usi.C84_score (before := i.before) hok.names i.score i.first (i.more ++ i.bad)
    replace e1 : Usi.infoScore (replyOf t).info = .ok (some v) := by rw [hinfo, ht]; exact e1
    have e2 : pvText Z b (replyOf t).info = .ok ([' '].intercalate (Spec.Web.kifLine (absPos b.pos) last (i.first :: i.more))) := by
      rw [hinfo, ht]
      unfold pvText
      rw [show infoChars (some i) = Usi.infoText (Usi.movesLine i.before i.score i.after i.first (i.more ++ i.bad)) from rfl,
        Usi.usiInfo_text hok.names]
      dsimp only
      have hsplit : Kif.splitAt ' ' (usiText i.first ++ Usi.flat ((i.more ++ i.bad).map usiText)) = ((i.first :: i.more) ++ i.bad).map usiText := by
        rw [Usi.splitAt_words]
        · rfl
        · intro w hw
          have : ∃ m, w = usiText m := by
            rcases List.mem_cons.mp hw with rfl | hw
            · exact ⟨_, rfl⟩
            · obtain ⟨m, -, rfl⟩ := List.mem_map.mp hw; exact ⟨m, rfl⟩
          obtain ⟨m, rfl⟩ := this
          exact (Usi.plain_move (Usi.usiText_chars m).1).blank
      rw [hsplit, pvLoop_line i.bad (i.first :: i.more) hg hl hok.legal hok.ends, Out.bind, joined_intercalate]
    refine ⟨⟨n, Spec.Web.sign b.pos.turn :: Spec.Web.kifMove (absPos b.pos) last mv, t.secs, encode b.pos mv, some (Usi.fromBlack b.pos.turn v),
      [' '].intercalate (Spec.Web.kifLine (absPos b.pos) last (i.first :: i.more))⟩, ?_, ⟨rfl, rfl, rfl, codes_encode _ _, ⟨v, hv, rfl⟩, rfl⟩⟩
    unfold entry
    rw [e1, Out.bind, e2, Out.bind, htext, hsym, hn]
    dsimp only
    rw [Option.map_some]
    have : v * (if b.pos.turn = .black then 1 else -1) = Usi.fromBlack b.pos.turn v := by
      unfold Usi.fromBlack
      split <;> omega
    rw [this]
    rfl

end Verif.Web
