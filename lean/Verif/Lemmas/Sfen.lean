import Verif.Model.Sfen
import Verif.Lemmas.Game
import Verif.Lemmas.HcpRound

/-!
# SFEN text: reading back what was written
-/

namespace Verif
open Spec Bitboard Position

/-! ### Decimal numbers -/

theorem digitCh_isDigit {d : Nat} (h : d < 10) : (digitCh d).isDigit = true := by
  interval_cases d <;> decide
theorem digitCh_val {d : Nat} (h : d < 10) : digitVal (digitCh d) = d := by
  interval_cases d <;> decide
theorem digitCh_toNat {d : Nat} (h : d < 10) : (digitCh d).toNat = 48 + d := by
  interval_cases d <;> decide

theorem natCharsF_mem (k n : Nat) : ∀ c ∈ natCharsF k n, ∃ d < 10, c = digitCh d := by
  induction k generalizing n with
  | zero => intro c hc; cases hc
  | succ k ih =>
    intro c hc
    unfold natCharsF at hc
    split at hc
    · next h => exact ⟨n, h, by simpa using hc⟩
    · rcases List.mem_append.mp hc with hc | hc
      · exact ih _ c hc
      · exact ⟨n % 10, by omega, by simpa using hc⟩

theorem natCharsF_value (k n : Nat) (h : n < k) (a : Nat) :
    (natCharsF k n).foldl (fun a c => a * 10 + digitVal c) 0 = n ∧ natCharsF k n ≠ [] := by
  induction k generalizing n with
  | zero => omega
  | succ k ih =>
    unfold natCharsF
    split
    · next h1 => simp [digitCh_val h1]
    · next h1 =>
      obtain ⟨e, -⟩ := ih (n / 10) (by omega)
      refine ⟨?_, by simp⟩
      rw [List.foldl_append, e]
      simp only [List.foldl_cons, List.foldl_nil, digitCh_val (show n % 10 < 10 by omega)]
      omega

theorem natChars_mem {n : Nat} {c : Char} (h : c ∈ natChars n) : ∃ d < 10, c = digitCh d := natCharsF_mem _ _ c h
theorem natChars_value (n : Nat) : (natChars n).foldl (fun a c => a * 10 + digitVal c) 0 = n :=
  (natCharsF_value _ n (by omega) 0).1
theorem natChars_ne_nil (n : Nat) : natChars n ≠ [] := (natCharsF_value _ n (by omega) 0).2

theorem natChars_small {n : Nat} (h : n < 10) : natChars n = [digitCh n] := by
  unfold natChars natCharsF; rw [if_pos h]

theorem natChars_isDigit {n : Nat} : ∀ c ∈ natChars n, c.isDigit = true := by
  intro c hc
  obtain ⟨d, hd, rfl⟩ := natChars_mem hc
  exact digitCh_isDigit hd

theorem takeWhile_all {l : List Char} {f : Char → Bool} (h : ∀ c ∈ l, f c = true) : l.takeWhile f = l := by
  induction l with
  | nil => rfl
  | cons a l ih => rw [List.takeWhile_cons, if_pos (h a (by simp)), ih (fun c hc => h c (by simp [hc]))]

theorem readNat_natChars (n : Nat) : readNat (natChars n) = n := by
  unfold readNat
  rw [takeWhile_all natChars_isDigit, natChars_value]

theorem natChars_head (n : Nat) : ∃ d l, d < 10 ∧ natChars n = digitCh d :: l := by
  rcases h : natChars n with _ | ⟨c, l⟩
  · exact absurd h (natChars_ne_nil n)
  · obtain ⟨d, hd, rfl⟩ := natChars_mem (n := n) (c := c) (by rw [h]; simp)
    exact ⟨d, l, hd, rfl⟩

theorem readSign_digit {d : Nat} (h : d < 10) (l : List Char) : readSign (digitCh d :: l) = (false, digitCh d :: l) := by
  interval_cases d <;> rfl

/-- The number printed is the number read. -/
theorem readInt_intChars (n : Int) (h1 : -2147483648 ≤ n) (h2 : n ≤ 2147483647) : readInt (intChars n) = n := by
  unfold intChars
  split
  · have e : ('-' :: natChars n.natAbs).dropWhile isSpace = '-' :: natChars n.natAbs := rfl
    unfold readInt
    simp only [e, readSign, readNat_natChars, if_true]
    omega
  · obtain ⟨d, l, hd, e⟩ := natChars_head n.natAbs
    have e1 : (natChars n.natAbs).dropWhile isSpace = natChars n.natAbs := by
      rw [e, List.dropWhile_cons_of_neg]
      interval_cases d <;> decide
    have e2 : readSign (natChars n.natAbs) = (false, natChars n.natAbs) := by rw [e, readSign_digit hd]
    unfold readInt
    simp only [e1, e2, readNat_natChars]
    simp only [Bool.false_eq_true, if_false]
    omega

/-! ### The board -/

/-- The squares of `l` lie one file apart, from the number `x` downwards. -/
def FilesFrom (x : Int) : List Square → Prop
  | [] => True
  | s :: l => (s.val : Int) = x ∧ FilesFrom (x - 9) l

/-- Placing the pieces of `b` on the squares of `l`. -/
def placeAll (b : Square → Option (Color × Kind)) (l : List Square) (p : Position) : Position :=
  l.foldl (fun q s => if pieceCode (b s) ≠ 0 then q.setPiece (pieceCode (b s)) s else q) p

theorem readBoard_space {n : Nat} (h : n < 10) (rest : List Char) (p : Position) (sq : Int) (flag : Nat) :
    readBoard (sfenSpace n ++ rest) p sq flag = readBoard rest p (sq - 9 * n) flag := by
  unfold sfenSpace
  split
  · rw [natChars_small h, List.cons_append, List.nil_append, readBoard, if_neg (by interval_cases n <;> decide),
      if_pos (digitCh_isDigit h), digitCh_val h]
    congr 1
  · next h0 =>
    have : n = 0 := by omega
    subst this
    simp

theorem readBoard_ch {ch : Char} {pc : Piece} (hc : charToPiece ch = some pc) (flag : Nat) (hf : flag = 0 ∨ flag = 8 ∧ pc % 16 ≤ 6)
    (rest : List Char) (p : Position) (s : Square) :
    readBoard (ch :: rest) p s.val flag = readBoard rest (p.setPiece (pc + flag) s) ((s.val : Int) - 9) 0 := by
  have h1 : (0 : Int) ≤ (s.val : Int) ∧ (s.val : Int) < 81 := by omega
  have h2 : sqN ((s.val : Int).toNat) = s := by
    unfold sqN; simp
  have h3 : ch ≠ ' ' ∧ ch.isDigit = false ∧ ch ≠ '/' ∧ ch ≠ '+' ∧ pc < 32 ∧ pc % 16 ≤ 8 ∧ pc + 8 < 33 := by
    unfold charToPiece at hc
    split at hc <;> first | cases hc; done | (cases hc; decide)
  obtain ⟨a1, a2, a3, a4, a5, a6, a7⟩ := h3
  rw [readBoard, if_neg a1, if_neg (by simp [a2]), if_neg a3, if_neg a4, hc]
  simp only
  rw [if_pos h1, if_neg, h2]
  · rfl
  · unfold pieceType
    omega

theorem readBoard_piece (c : Color) (k : Kind) (rest : List Char) (p : Position) (s : Square) :
    readBoard (usiChars (mkPiece c k.code) ++ rest) p s.val 0 = readBoard rest (p.setPiece (mkPiece c k.code) s) ((s.val : Int) - 9) 0 := by
  have hplus : ∀ cs, readBoard ('+' :: cs) p s.val 0 = readBoard cs p s.val 8 := fun cs => rfl
  cases c <;> cases k <;>
    simp only [usiChars, mkPiece, Color.idx, Kind.code, List.cons_append, List.nil_append, Nat.mul_zero, Nat.zero_add, Nat.mul_one, Nat.reduceAdd, hplus]
  all_goals first
    | exact readBoard_ch rfl 0 (by decide) rest p s
    | exact readBoard_ch rfl 8 (by decide) rest p s

theorem readBoard_rank (b : Square → Option (Color × Kind)) (piece : Square → Piece) (hp : ∀ s, piece s = pieceCode (b s))
    (l : List Square) (n : Nat) (hn : n + l.length ≤ 9) (rest : List Char) (p : Position) (sq : Int) (hl : FilesFrom (sq - 9 * n) l) :
    readBoard (sfenRank piece l n ++ rest) p sq 0 = readBoard rest (placeAll b l p) (sq - 9 * n - 9 * l.length) 0 := by
  induction l generalizing n p sq with
  | nil =>
    simp only [sfenRank, placeAll, List.foldl_nil, List.length_nil]
    rw [readBoard_space (by simp at hn; omega)]
    congr 1
    simp
  | cons s l ih =>
    obtain ⟨h1, h2⟩ := hl
    simp only [List.length_cons] at hn
    rcases hb : b s with _ | ⟨c, k⟩
    · have hz : pieceCode (b s) = 0 := pieceCode_eq_zero.mpr hb
      rw [sfenRank, if_pos (by rw [hp, hz]), ih (n + 1) (by omega) _ _ (by rw [show sq - 9 * ((n + 1 : Nat) : Int) = sq - 9 * n - 9 by omega]; exact h2)]
      simp only [placeAll, List.foldl_cons, hz, ne_eq, not_true_eq_false, if_false, List.length_cons]
      congr 1
      omega
    · have hz : pieceCode (b s) ≠ 0 := by rw [ne_eq, pieceCode_eq_zero, hb]; simp
      rw [sfenRank, if_neg (by rw [hp]; exact hz), List.append_assoc, readBoard_space (by omega), ← h1, List.append_assoc, hp, hb]
      rw [show pieceCode (some (c, k)) = mkPiece c k.code from rfl, readBoard_piece, ih 0 (by omega) _ _ (by rw [h1]; simpa using h2)]
      simp only [placeAll, List.foldl_cons, hz, ne_eq, not_false_eq_true, if_true, List.length_cons]
      congr 1
      · rw [hb]; rfl
      · omega

/-- The squares in the order of the text. -/
def textOrder : List Square := (List.range 9).flatMap rankSquares

theorem textOrder_nodup : textOrder.Nodup := by decide +kernel
theorem mem_textOrder : ∀ s, s ∈ textOrder := by decide +kernel

theorem filesFrom_rank (r : Nat) (h : r < 9) : FilesFrom (72 + r) (rankSquares r) := by
  interval_cases r <;> (repeat' first | exact trivial | refine ⟨by decide, ?_⟩)

theorem readBoard_ranks (b : Square → Option (Color × Kind)) (piece : Square → Piece) (hp : ∀ s, piece s = pieceCode (b s))
    (k r : Nat) (hk : r + k = 9) (hk0 : 0 < k) (rest : List Char) (p : Position) :
    readBoard ((List.range' r k).flatMap (fun r => sfenRank piece (rankSquares r) 0 ++ (if r ≠ 8 then ['/'] else [])) ++ rest) p (72 + r) 0 =
      readBoard rest (placeAll b ((List.range' r k).flatMap rankSquares) p) (-1) 0 := by
  induction k generalizing r p with
  | zero => omega
  | succ k ih =>
    have hr := readBoard_rank b piece hp (rankSquares r) 0 (by simp [rankSquares])
    rw [List.range'_succ, List.flatMap_cons, List.append_assoc, List.append_assoc, hr _ _ _ (by simpa using filesFrom_rank r (by omega))]
    have hlen : (rankSquares r).length = 9 := rfl
    rw [hlen]
    by_cases h8 : r = 8
    · have : k = 0 := by omega
      subst this; subst h8
      rw [if_neg (by simp)]
      simp only [List.nil_append, List.range'_zero, List.flatMap_nil, List.flatMap_cons, List.append_nil]
      congr 1
    · rw [if_pos h8, List.cons_append, List.nil_append]
      have : readBoard ('/' :: ((List.range' (r + 1) k).flatMap (fun r => sfenRank piece (rankSquares r) 0 ++ (if r ≠ 8 then ['/'] else [])) ++ rest))
          (placeAll b (rankSquares r) p) (72 + ↑r - 9 * ((0 : Nat) : Int) - 9 * ((9 : Nat) : Int)) 0 =
          readBoard ((List.range' (r + 1) k).flatMap (fun r => sfenRank piece (rankSquares r) 0 ++ (if r ≠ 8 then ['/'] else [])) ++ rest)
          (placeAll b (rankSquares r) p) (72 + ((r + 1 : Nat) : Int)) 0 := by
        rw [readBoard, if_neg (by decide), if_neg (by decide), if_pos rfl]
        congr 1
        omega
      refine this.trans ?_
      rw [ih (r + 1) (by omega) (by omega)]
      simp only [placeAll, List.flatMap_cons, List.foldl_append]

theorem readBoard_board (b : Square → Option (Color × Kind)) (piece : Square → Piece) (hp : ∀ s, piece s = pieceCode (b s))
    (rest : List Char) (p : Position) :
    readBoard (sfenBoard piece ++ rest) p 72 0 = readBoard rest (placeAll b textOrder p) (-1) 0 := by
  have := readBoard_ranks b piece hp 9 0 rfl (by omega) rest p
  exact this

/-! ### The hands -/

theorem readHands_digits (l : List Char) (hl : ∀ c ∈ l, ∃ d < 10, c = digitCh d) (rest : List Char) (p : Position) (a : Nat)
    (hb : l.foldl (fun a c => a * 10 + digitVal c) a ≤ 1000000) :
    readHands (l ++ rest) p a = readHands rest p (l.foldl (fun a c => a * 10 + digitVal c) a) := by
  induction l generalizing a with
  | nil => rfl
  | cons c l ih =>
    obtain ⟨d, hd, rfl⟩ := hl c (by simp)
    have hmono : ∀ (l : List Char) (a : Nat), a ≤ l.foldl (fun a c => a * 10 + digitVal c) a := by
      intro l
      induction l with
      | nil => intro a; exact le_refl _
      | cons c l ih => intro a; rw [List.foldl_cons]; have := ih (a * 10 + digitVal c); omega
    have h1 := hmono l (a * 10 + digitVal (digitCh d))
    rw [List.foldl_cons] at hb
    rw [List.cons_append, readHands, if_neg (by interval_cases d <;> decide), if_neg (by interval_cases d <;> decide),
      if_pos (digitCh_isDigit hd), if_pos (by rw [digitCh_toNat hd]; have := digitCh_val hd; omega), ih (fun c hc => hl c (by simp [hc])) _ hb]
    rfl

theorem readHands_piece (c : Color) (hp : Nat) (h7 : hp < 7) (rest : List Char) (p : Position) (n : Nat) :
    readHands (usiChars (mkPiece c (handToPt hp)) ++ rest) p n = readHands rest (p.setHand hp c (if n = 0 then 1 else n)) 0 := by
  cases c <;> interval_cases hp <;> rfl

theorem setHand_zero (p : Position) (hp : Nat) (c : Color) : p.setHand hp c 0 = p := by
  unfold setHand Hand.orEqual
  simp only [BitVec.ofNat_eq_ofNat, BitVec.zero_shiftLeft, BitVec.or_zero]
  rw [upd_self _ _ _ rfl]

theorem readHands_fold (h : Hand) (c : Color) (l : List Nat) (hl : ∀ i ∈ l, i < 7) (hn : ∀ i ∈ l, h.numOf i ≤ 1000000) (rest : List Char) (p : Position) :
    readHands ((l.flatMap fun hp =>
      let num := h.numOf hp
      if num = 0 then [] else (if num ≠ 1 then natChars num else []) ++ usiChars (mkPiece c (handToPt hp))) ++ rest) p 0 =
      readHands rest (l.foldl (fun q hp => q.setHand hp c (h.numOf hp)) p) 0 := by
  induction l generalizing p with
  | nil => rfl
  | cons a l ih =>
    have ih' := ih (fun i hi => hl i (by simp [hi])) (fun i hi => hn i (by simp [hi]))
    rw [List.flatMap_cons, List.append_assoc, List.foldl_cons]
    by_cases h0 : h.numOf a = 0
    · simp only [h0, if_true, List.nil_append, setHand_zero]
      exact ih' p
    · simp only [h0, if_false]
      by_cases h1 : h.numOf a = 1
      · simp only [h1, ne_eq, not_true_eq_false, if_false, List.nil_append]
        rw [readHands_piece c a (hl a (by simp)), ih']
        rfl
      · simp only [h1, ne_eq, not_false_eq_true, if_true]
        rw [List.append_assoc, readHands_digits _ (fun x hx => natChars_mem hx) _ _ _ (by rw [natChars_value]; exact hn a (by simp)),
          natChars_value, readHands_piece c a (hl a (by simp)), ih', if_neg h0]

/-- What reading a written position gives, before the final step. -/
theorem placeAll_other (b : Square → Option (Color × Kind)) (l : List Square) (p : Position) :
    (placeAll b l p).hand = p.hand ∧ (placeAll b l p).turn = p.turn ∧ (placeAll b l p).prev = p.prev ∧ (placeAll b l p).st = p.st := by
  unfold placeAll
  induction l generalizing p with
  | nil => exact ⟨rfl, rfl, rfl, rfl⟩
  | cons a l ih =>
    rw [List.foldl_cons]
    obtain ⟨h1, h2, h3, h4⟩ := ih (if pieceCode (b a) ≠ 0 then p.setPiece (pieceCode (b a)) a else p)
    refine ⟨h1.trans ?_, h2.trans ?_, h3.trans ?_, h4.trans ?_⟩ <;> split <;> rfl

/-- Reading the items of both hands in some order. -/
theorem readHands_items (p : Position) (order : List Nat) (hlt : ∀ i ∈ order, i < 7) (hnum : ∀ c, ∀ i < 7, (p.hand c).numOf i ≤ setSize i)
    (rest : List Char) (q : Position) (hq : q.hand = fun _ => Hand.empty) :
    readHands ((order.flatMap fun hp =>
        let num := (p.hand .black).numOf hp
        if num = 0 then [] else (if num ≠ 1 then natChars num else []) ++ usiChars (mkPiece .black (handToPt hp))) ++
      ((order.flatMap fun hp =>
        let num := (p.hand .white).numOf hp
        if num = 0 then [] else (if num ≠ 1 then natChars num else []) ++ usiChars (mkPiece .white (handToPt hp))) ++ ' ' :: rest)) q 0 =
      .ok ({ q with hand := fun c => fillHand (p.hand c).numOf order }, some rest) := by
  have hset : ∀ i, setSize i ≤ 1000000 := by
    intro i; unfold setSize; split <;> omega
  have k1 := readHands_fold (p.hand .black) .black order hlt (fun i hi => (hnum _ i (hlt i hi)).trans (hset i))
  have k2 := readHands_fold (p.hand .white) .white order hlt (fun i hi => (hnum _ i (hlt i hi)).trans (hset i))
  rw [k1, k2, readHands, if_pos rfl]
  congr 2
  rw [setHand_fold, setHand_fold]
  congr 1
  funext c
  cases c
  · simp only [upd, hq]; rfl
  · simp only [upd, hq]; rfl

/-- What reading a board part, a turn and hands gives, whatever the order of the pieces in hand. -/
theorem text_spec (Z : Zobrist) {p : Position} (hcode : ∀ s, p.piece s = pieceCode ((absPos p).board s))
    (hnum : ∀ c, ∀ i < 7, (p.hand c).numOf i ≤ setSize i) (ply : Int) (hl : -2147483648 ≤ ply) (hu : ply ≤ 2147483647)
    (order : List Nat) (hlt : ∀ i ∈ order, i < 7) (hnd : order.Nodup) (hmem : ∀ i < 7, i ∈ order) (tail : List Char)
    (e3 : ∀ q : Position, (q.hand = fun _ => Hand.empty) →
      readHands tail q 0 = .ok ({ q with hand := fun c => fillHand (p.hand c).numOf order }, some (intChars ply))) :
    ∃ q, setSfen Z (sfenBoard p.piece ++ (' ' :: (if p.turn = .black then 'b' else 'w') :: ' ' :: tail)) = .ok (finish Z q) ∧
      Raw q (absPos p).board ∧ q.turn = p.turn ∧ q.gamePly = ply ∧ q.prev = [] ∧
      (∀ c, (q.hand c).WF ∧ ∀ i < 7, (q.hand c).numOf i = (p.hand c).numOf i) ∧
      q.st.pliesFromNull = 0 ∧ q.st.continuousCheck = fun _ => 0 := by
  have hraw := Raw.place textOrder textOrder_nodup (absPos p).board Position.clear (fun _ => none) Raw.clear (fun _ _ => rfl)
  rw [show (fun s => if s ∈ textOrder then (absPos p).board s else none) = (absPos p).board from by
    funext s; rw [if_pos (mem_textOrder s)]] at hraw
  obtain ⟨q0, hq0⟩ : ∃ x, x = placeAll (absPos p).board textOrder Position.clear := ⟨_, rfl⟩
  replace hraw : Raw q0 (absPos p).board := by rw [hq0]; exact hraw
  obtain ⟨o1, o2, o3, o4⟩ := placeAll_other (absPos p).board textOrder Position.clear
  rw [← hq0] at o1 o2 o3 o4
  obtain ⟨tc, htc⟩ : ∃ x, x = (if p.turn = .black then 'b' else 'w') := ⟨_, rfl⟩
  have e1 : readBoard (sfenBoard p.piece ++ (' ' :: tc :: ' ' :: tail)) Position.clear 72 0 = .ok (q0, some (tc :: ' ' :: tail)) := by
    rw [readBoard_board (absPos p).board p.piece hcode, ← hq0]
    rfl
  have e2 : readTurn (tc :: ' ' :: tail) q0 = .ok ({ q0 with turn := p.turn }, some tail) := by
    rw [htc]
    cases p.turn <;> rfl
  obtain ⟨q2, hq2⟩ : ∃ x, x = ({ q0 with turn := p.turn } : Position) := ⟨_, rfl⟩
  have hq2h : q2.hand = fun _ => Hand.empty := by rw [hq2]; exact o1
  have hfill : ∀ c, HandIs (fillHand (p.hand c).numOf order) (fun i => if i ∈ order then (p.hand c).numOf i else 0) :=
    fun c => C09_fill (p.hand c).numOf (hnum c) order hnd hlt
  obtain ⟨q3, hq3⟩ : ∃ x, x = ({ q2 with hand := fun c => fillHand (p.hand c).numOf order } : Position) := ⟨_, rfl⟩
  have e3 : readHands tail q2 0 = .ok (q3, some (intChars ply)) := by rw [e3 q2 hq2h, hq3]
  refine ⟨{ q3 with gamePly := ply }, ?_, ?_, ?_, rfl, ?_, ?_, ?_, ?_⟩
  · unfold setSfen parseSfen
    rw [← htc, e1]
    simp only [Out.bind_ok, onStream, e2, ← hq2, e3, readPly, readInt_intChars ply hl hu]
  · exact hraw.congr (by rw [hq3, hq2]) (by rw [hq3, hq2]) (by rw [hq3, hq2])
  · rw [hq3, hq2]
  · rw [hq3, hq2]; exact o3
  · intro c
    rw [hq3]
    refine ⟨(hfill c).wf, fun i hi => ?_⟩
    rw [(hfill c).counts i hi, if_pos (hmem i hi)]
  · rw [hq3, hq2]; show q0.st.pliesFromNull = 0; rw [o4]; rfl
  · rw [hq3, hq2]; show q0.st.continuousCheck = _; rw [o4]; rfl

theorem sfen_spec (Z : Zobrist) {p : Position} (hcode : ∀ s, p.piece s = pieceCode ((absPos p).board s))
    (hhand : ∀ c h, (absPos p).hand c h ≤ h.total) (ply : Int) (hl : -2147483648 ≤ ply) (hu : ply ≤ 2147483647) :
    ∃ q, setSfen Z (toSfen p ply) = .ok (finish Z q) ∧ Raw q (absPos p).board ∧ q.turn = p.turn ∧ q.gamePly = ply ∧ q.prev = [] ∧
      (∀ c, (q.hand c).WF ∧ ∀ i < 7, (q.hand c).numOf i = (p.hand c).numOf i) ∧
      q.st.pliesFromNull = 0 ∧ q.st.continuousCheck = fun _ => 0 := by
  have hnum : ∀ c, ∀ i < 7, (p.hand c).numOf i ≤ setSize i := by
    intro c i hi
    obtain ⟨h, rfl⟩ := hcode_surj i hi
    rw [← total_eq]; exact hhand c h
  obtain ⟨tail, ht⟩ : ∃ x, x = ((if p.hand .black = 0#32 ∧ p.hand .white = 0#32 then ['-', ' ']
      else sfenHand (p.hand .black) .black ++ (sfenHand (p.hand .white) .white ++ [' '])) ++ intChars ply) := ⟨_, rfl⟩
  have hs : toSfen p ply = sfenBoard p.piece ++ (' ' :: (if p.turn = .black then 'b' else 'w') :: ' ' :: tail) := by
    unfold toSfen
    rw [← ht]
    cases p.turn <;> rfl
  rw [hs]
  refine text_spec Z hcode hnum ply hl hu [6, 5, 4, 3, 2, 1, 0] (by decide) (by decide) (by decide) tail fun q hq => ?_
  rw [ht]
  split
  · next h0 =>
    have hz : ∀ c, p.hand c = Hand.empty := by intro c; cases c; exacts [h0.1, h0.2]
    have hf : (fun c => fillHand (p.hand c).numOf [6, 5, 4, 3, 2, 1, 0]) = fun _ => Hand.empty := by
      funext c
      rw [hz c]; decide
    rw [hf]
    show readHands ('-' :: ' ' :: intChars ply) q 0 = _
    rw [readHands, if_neg (by decide), if_pos rfl, readHands, if_pos rfl]
  · rw [List.append_assoc, List.append_assoc]
    exact readHands_items p _ (by decide) hnum (intChars ply) q hq

end Verif
