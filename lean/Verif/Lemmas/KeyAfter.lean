import Verif.Lemmas.Game

namespace Verif
open Spec Bitboard Position

theorem pieceType_promoted (c : Color) (k : Kind) (pro : Bool) (hpro : pro = true → k.promoted.isSome = true) :
    pieceType (if pro = true then mkPiece c k.code + 8 else mkPiece c k.code) = (Pos.arriving k pro).code := by
  cases pro
  · exact pieceType_mkPiece c k
  · have := hpro rfl
    cases c <;> cases k <;> simp [Kind.promoted] at this <;> rfl

/-! ### Exclusive-or sums -/

/-- Exclusive or of `f` over a list. -/
def xorSum {α : Type} (l : List α) (f : α → BitVec 64) : BitVec 64 := l.foldr (fun s k => f s ^^^ k) 0#64

theorem foldl_xor {α : Type} (l : List α) (f : α → BitVec 64) (r : BitVec 64) :
    l.foldl (fun k s => k ^^^ f s) r = r ^^^ xorSum l f := by
  induction l generalizing r with
  | nil => simp [xorSum]
  | cons a l ih => rw [List.foldl_cons, ih]; simp only [xorSum, List.foldr_cons]; rw [BitVec.xor_assoc]

theorem xorSum_congr {α : Type} {l : List α} {f g : α → BitVec 64} (h : ∀ a ∈ l, f a = g a) : xorSum l f = xorSum l g := by
  induction l with
  | nil => rfl
  | cons a l ih =>
    simp only [xorSum, List.foldr_cons] at *
    rw [h a (by simp), ih (fun x hx => h x (by simp [hx]))]

theorem xorSum_upd {α β : Type} [DecidableEq α] (l : List α) (hn : l.Nodup) (F : α → β → BitVec 64) (g : α → β) (a : α) (ha : a ∈ l) (v : β) :
    xorSum l (fun s => F s (upd g a v s)) = xorSum l (fun s => F s (g s)) ^^^ F a (g a) ^^^ F a v := by
  induction l with
  | nil => simp at ha
  | cons b l ih =>
    obtain ⟨hb, hl⟩ := List.nodup_cons.mp hn
    by_cases hab : a = b
    · subst hab
      have : xorSum l (fun s => F s (upd g a v s)) = xorSum l (fun s => F s (g s)) :=
        xorSum_congr (fun x hx => by rw [upd_ne _ _ (by rintro rfl; exact hb hx)])
      simp only [xorSum, List.foldr_cons] at *
      rw [this, upd_same]
      rw [BitVec.xor_comm (F a (g a)), BitVec.xor_assoc (_ : BitVec 64) (F a (g a)) (F a (g a)), BitVec.xor_self, BitVec.xor_zero, BitVec.xor_comm]
    · have hal : a ∈ l := by
        rcases List.mem_cons.mp ha with e | e
        · exact absurd e hab
        · exact e
      have := ih hl hal
      simp only [xorSum, List.foldr_cons] at *
      rw [this, upd_ne _ _ (fun e => hab e.symm)]
      ac_rfl

theorem xorSum_filter {α : Type} (l : List α) (f : α → BitVec 64) (P : α → Bool) :
    xorSum (l.filter P) f = xorSum l (fun s => if P s = true then f s else 0#64) := by
  induction l with
  | nil => rfl
  | cons a l ih =>
    rw [List.filter_cons]
    split
    · next h => simp only [xorSum, List.foldr_cons, h, if_true] at *; rw [ih]
    · next h => simp only [xorSum, List.foldr_cons, h, Bool.false_eq_true, if_false] at *; rw [ih]; simp

/-- Contribution of a cell to the book key. -/
def bookCell (B : BookTable) (s : Square) : Option (Color × Kind) → BitVec 64
  | none => 0#64
  | some (c, k) => B.piece (mkPiece c k.code) s

/-- The book key of a board. -/
def bookBoard (B : BookTable) (b : Square → Option (Color × Kind)) : BitVec 64 :=
  xorSum (List.finRange 81) (fun s => bookCell B s (b s))

/-- The book key of a hand. -/
def bookHandKey (B : BookTable) (h : Hand) : BitVec 64 := xorSum (List.range 7) (fun hp => B.hand hp (h.numOf hp))

theorem bookHand_eq (B : BookTable) (h : Hand) (k : BitVec 64) : bookHand B h k = k ^^^ bookHandKey B h :=
  foldl_xor _ _ _

theorem bookKey_eq (B : BookTable) {p : Position} (h : Consistent p) :
    bookKey B p = bookBoard B (absPos p).board ^^^ bookHandKey B (p.hand p.turn) ^^^ (if p.turn = .white then B.turn else 0#64) := by
  unfold bookKey
  simp only [foldl_xor, bookHand_eq]
  rw [h.wfOcc.toList_eq, xorSum_filter]
  have : (fun s => if p.occupied.isSet s = true then B.piece (p.piece s) s else 0#64) =
      (fun s => bookCell B s ((absPos p).board s)) := by
    funext s
    rw [h.occ, h.code]
    unfold Pos.occ
    rcases (absPos p).board s with _ | ⟨c, k⟩ <;> simp [bookCell, pieceCode]
  rw [this, BitVec.zero_xor]
  unfold bookBoard
  split <;> simp

theorem bookBoard_set (B : BookTable) (b : Square → Option (Color × Kind)) (s : Square) (v : Option (Color × Kind)) :
    bookBoard B (Pos.set b s v) = bookBoard B b ^^^ bookCell B s (b s) ^^^ bookCell B s v :=
  xorSum_upd (List.finRange 81) (List.nodup_finRange 81) (bookCell B) b s (List.mem_finRange s) v

theorem turn_flip (B : BookTable) (t : Color) :
    (if t = .white then B.turn else 0#64) ^^^ B.turn = (if t.opp = .white then B.turn else 0#64) := by
  cases t <;> simp [Color.opp]

theorem xor_cancel_right (a b : BitVec 64) : a ^^^ b ^^^ b = a := by rw [BitVec.xor_assoc, BitVec.xor_self, BitVec.xor_zero]

/-- The book key after a move, for both kinds of moves. -/
theorem bookKeyAfter_eq (Z : Zobrist) (B : BookTable) {p p' : Position} (h : Inv Z p) {m : Mv} (hm : (absPos p).Playable m)
    (hp : doMove Z p (encode p m) = some p') : bookKeyAfter B p (bookKey B p) (encode p m) = bookKey B p' := by
  obtain ⟨p'', e, hi, habs, -⟩ := doMove_inv Z h hm
  rw [hp] at e; cases e
  rw [bookKey_eq B hi.views, bookKey_eq B h.views]
  have hturn : p'.turn = p.turn.opp := by
    have : (absPos p').turn = _ := congrArg Pos.turn habs
    rw [show p'.turn = (absPos p').turn from rfl, this]
    cases m with
    | move s t pro => simp only [Pos.play]; split <;> rfl
    | drop hk t => rfl
  have hhand : p'.hand p.turn.opp = p.hand p.turn.opp := by
    cases m with
    | move s t pro =>
      simp only [doMove, encode, board_isDrop] at hp
      split at hp
      · simp only [Bool.false_eq_true, if_false, Option.some.injEq] at hp
        rw [← hp]
        simp only [doBoard]
        split
        · rw [upd_ne _ _ (opp_ne _)]
        · rfl
      · simp at hp
    | drop hk t =>
      obtain ⟨-, -, hdr, -, hdef⟩ := drop_fields hk t
      simp only [doMove, encode, hdr, hdef, if_true, Option.some.injEq] at hp
      rw [← hp]
      simp only [doDrop]
      rw [upd_ne _ _ (opp_ne _)]
  rw [hturn, hhand, habs, ← turn_flip]
  unfold bookKeyAfter
  simp only [bookHand_eq]
  obtain ⟨A, hA⟩ : ∃ x, x = bookBoard B (absPos p).board := ⟨_, rfl⟩
  obtain ⟨H, hH⟩ : ∃ x, x = bookHandKey B (p.hand p.turn) := ⟨_, rfl⟩
  obtain ⟨H', hH'⟩ : ∃ x, x = bookHandKey B (p.hand p.turn.opp) := ⟨_, rfl⟩
  obtain ⟨T, hT⟩ : ∃ x, x = (if p.turn = .white then B.turn else 0#64) := ⟨_, rfl⟩
  cases m with
  | drop hk t =>
    obtain ⟨h1, ht⟩ := hm
    obtain ⟨hd, -, hdr, hpt, -⟩ := drop_fields hk t
    simp only [encode, hdr, if_true, hd, hpt, Pos.play, bookBoard_set, ht, bookCell]
    rw [← hA, ← hH, ← hH', ← hT, show (absPos p).turn = p.turn from rfl]
    generalize B.piece (mkPiece p.turn hk.kind.code) t = C
    have : A ^^^ H ^^^ T ^^^ C ^^^ H ^^^ H' ^^^ B.turn = A ^^^ 0#64 ^^^ C ^^^ H' ^^^ (T ^^^ B.turn) := by
      have e : A ^^^ H ^^^ T ^^^ C ^^^ H ^^^ H' ^^^ B.turn = (A ^^^ C ^^^ H' ^^^ (T ^^^ B.turn)) ^^^ H ^^^ H := by ac_rfl
      rw [e, xor_cancel_right, BitVec.xor_zero]
    exact this
  | move s t pro =>
    obtain ⟨hst, ⟨k, hs, hpro⟩, ht, htk⟩ := hm
    have hpt : pieceType (p.piece s) = k.code := by rw [h.views.code, hs, pieceType_pieceCode]; rfl
    obtain ⟨hd, hsrc, -, -, hnd, hptf, hptt, hcap, -⟩ := board_fields p s t pro k hpt hpro
    rw [h.views.code t, pieceType_pieceCode] at hcap
    have e0 : Pos.set (absPos p).board s none t = (absPos p).board t := by
      unfold Pos.set; rw [if_neg (fun e => hst e.symm)]
    simp only [encode, hnd, Bool.false_eq_true, if_false, hd, hsrc, hptf, hptt, hcap, Pos.play, hs, bookBoard_set, e0]
    rw [← hA, ← hH, ← hH', ← hT, h.views.piece_some hs, show (absPos p).turn = p.turn from rfl]
    have e1 : (if typeCode ((absPos p).board t) ≠ 0 then
          A ^^^ H ^^^ T ^^^ B.piece (mkPiece p.turn k.code) s ^^^ B.piece (mkPiece p.turn (Pos.arriving k pro).code) t ^^^ B.piece (p.piece t) t
        else A ^^^ H ^^^ T ^^^ B.piece (mkPiece p.turn k.code) s ^^^ B.piece (mkPiece p.turn (Pos.arriving k pro).code) t)
        = A ^^^ H ^^^ T ^^^ B.piece (mkPiece p.turn k.code) s ^^^ B.piece (mkPiece p.turn (Pos.arriving k pro).code) t ^^^
          bookCell B t ((absPos p).board t) := by
      rcases hb : (absPos p).board t with _ | ⟨c', k'⟩
      · simp [typeCode, bookCell]
      · simp [typeCode, bookCell, code_ne_zero, h.views.piece_some hb]
    rw [e1]
    rw [show bookCell B s none = 0#64 from rfl, show bookCell B s (some (p.turn, k)) = B.piece (mkPiece p.turn k.code) s from rfl,
      show bookCell B t (some (p.turn, Pos.arriving k pro)) = B.piece (mkPiece p.turn (Pos.arriving k pro).code) t from rfl]
    generalize B.piece (mkPiece p.turn k.code) s = C
    generalize B.piece (mkPiece p.turn (Pos.arriving k pro).code) t = D
    generalize bookCell B t ((absPos p).board t) = E
    have e : A ^^^ H ^^^ T ^^^ C ^^^ D ^^^ E ^^^ H ^^^ H' ^^^ B.turn = (A ^^^ C ^^^ E ^^^ D ^^^ H' ^^^ (T ^^^ B.turn)) ^^^ H ^^^ H := by ac_rfl
    rw [e, xor_cancel_right, BitVec.xor_zero]

theorem getKeyAfter_eq (Z : Zobrist) {p p' : Position} (h : Consistent p) {m : Mv} (hm : (absPos p).Playable m)
    (hp : doMove Z p (encode p m) = some p') :
    getKeyAfter Z p (encode p m) = p'.getKey ∧ getBoardKeyAfter Z p (encode p m) = p'.st.boardKey := by
  cases m with
  | drop hk t =>
    obtain ⟨-, -, hdr, -, hdef⟩ := drop_fields hk t
    simp only [doMove, encode, hdr, hdef, if_true, Option.some.injEq] at hp
    rw [← hp]
    simp only [encode, getKeyAfter, getBoardKeyAfter, hdr, if_true, getKey, StateInfo.key, doDrop]
    simp
  | move s t pro =>
    obtain ⟨hst, ⟨k, hs, hpro⟩, ht, htk⟩ := hm
    have hdef := board_defined h hs hpro ht htk
    have hpt : pieceType (p.piece s) = k.code := by rw [h.code, hs, pieceType_pieceCode]; rfl
    obtain ⟨hd, hsrc, -, -, hnd, hptf, hptt, hcap, hpr⟩ := board_fields p s t pro k hpt hpro
    rw [h.code t, pieceType_pieceCode] at hcap
    simp only [doMove, encode, hnd, hdef, if_true, Bool.false_eq_true, if_false, Option.some.injEq] at hp
    rw [← hp]
    simp only [encode, getKeyAfter, getBoardKeyAfter, hnd, Bool.false_eq_true, if_false, getKey, StateInfo.key, doBoard, hd, hsrc,
      hptf, hptt, hcap, hpr, h.piece_some hs, pieceType_promoted (absPos p).turn k pro hpro, pieceType_mkPiece]
    rcases hb : (absPos p).board t with _ | ⟨c', k'⟩
    · simp [typeCode, h.piece_none hb]
    · have hc' : c' = p.turn.opp := by
        rcases eq_or_opp p.turn c' with e | e
        · subst e; exact absurd hb (ht _)
        · exact e
      subst hc'
      simp only [typeCode, h.piece_some hb, ne_eq, mkPiece_ne_zero, code_ne_zero, not_false_eq_true, if_true, pieceType_mkPiece,
        pieceColor_mkPiece]
      constructor <;> abel

end Verif
