import Verif.Lemmas.Hcp
import Verif.Lemmas.Regular

namespace Verif
open Spec Bitboard Position

/-! ### Lengths -/

theorem pieceType_code (c : Color) (k : Kind) : pieceType (pieceCode (some (c, k))) = k.code := pieceType_mkPiece c k

theorem code_king (k : Kind) : k.code = PT.King ↔ k = .king := by cases k <;> decide

theorem ptToHand_code {k : Kind} {h : HKind} (e : k.hand = some h) : ptToHand k.code = h.code := by
  cases k <;> cases e <;> rfl

theorem hand_none {k : Kind} (e : k.hand = none) : k = .king := by cases k <;> first | rfl | cases e

/-- A board cell weighs in the count of one hand kind at most. -/
theorem boxCount_cell (o : Option (Color × Kind)) (h : HKind) :
    decide (pieceType (pieceCode o) ≠ PT.King ∧ ptToHand (pieceType (pieceCode o)) = h.code) =
      decide (o.bind (·.2.hand) = some h) := by
  rcases o with _ | ⟨c, k⟩
  · cases h <;> rfl
  · rw [pieceType_code]
    cases k <;> cases h <;> rfl

theorem boxCount_eq (b : Square → Option (Color × Kind)) (l : List Square) (h : HKind) :
    boxCount (fun s => pieceCode (b s)) l h.code = l.countP fun s => decide ((b s).bind (·.2.hand) = some h) := by
  unfold boxCount
  congr 1
  funext s
  exact boxCount_cell (b s) h

/-- Squares of `l` holding a king. -/
def kingCount (b : Square → Option (Color × Kind)) (l : List Square) : Nat :=
  l.countP fun s => decide ((b s).map (·.2) = some Kind.king)

/-- A sum over the seven hand kinds. -/
def hsum (f : HKind → Nat) : Nat := f .pawn + f .lance + f .knight + f .silver + f .gold + f .bishop + f .rook

theorem cellBits_length {T : CodeTables} (hT : Good T) (o : Option (Color × Kind)) :
    (cellBits T (pieceCode o)).length + (if o.map (·.2) = some Kind.king then 1 else 0) =
      1 + hsum fun h => (codeLen h - 1) * (if o.bind (·.2.hand) = some h then 1 else 0) := by
  rcases o with _ | ⟨c, k⟩
  · have : cellBits T (pieceCode none) = (T.board 0).bits := by unfold cellBits; rfl
    rw [this]
    simp [HuffmanCode.bits, bitsOf_length, hT.lenEmpty, hsum]
  · unfold cellBits
    simp only [pieceType_code, code_king]
    rcases hk : k.hand with _ | h
    · rw [hand_none hk]; simp [hsum, Kind.hand]
    · have hne : k ≠ .king := by rintro rfl; cases hk
      have hl := hT.lenBoard c k h hk
      rw [if_neg hne]
      simp only [HuffmanCode.bits, bitsOf_length, show pieceCode (some (c, k)) = mkPiece c k.code from rfl, hl]
      simp only [Option.map_some, Option.some.injEq, hne, if_false, Option.bind_some, hk]
      cases h <;> simp [hsum, codeLen]

theorem boardBits_length {T : CodeTables} (hT : Good T) (b : Square → Option (Color × Kind)) (l : List Square) :
    (boardBits T (fun s => pieceCode (b s)) l).length + kingCount b l =
      l.length + hsum fun h => (codeLen h - 1) * (l.countP fun s => decide ((b s).bind (·.2.hand) = some h)) := by
  induction l with
  | nil => simp [boardBits, kingCount, hsum]
  | cons s l ih =>
    have hc := cellBits_length hT (b s)
    simp only [boardBits, List.flatMap_cons, List.length_append, kingCount, List.countP_cons, List.length_cons, hsum,
      decide_eq_true_eq, codeLen, Nat.add_one_sub_one, Nat.mul_add] at ih hc ⊢
    omega

theorem flatMap_replicate_length (T : CodeTables) (num : Nat → Nat) (f : HandPiece → HuffmanCode) :
    ((List.range 7).flatMap fun hp => (List.replicate (num hp) (f hp).bits).flatten).length =
      hsum fun h => num h.code * (f h.code).numOfBits := by
  simp only [show List.range 7 = [0, 1, 2, 3, 4, 5, 6] from rfl, List.flatMap_cons, List.flatMap_nil, List.length_append,
    replicate_length, List.length_nil, hsum, HKind.code]
  omega

theorem boxBits_length {T : CodeTables} (hT : Good T) (num : Nat → Nat) :
    (boxBits T num (List.range 7)).length = hsum fun h => (codeLen h - 1) * num h.code := by
  unfold boxBits
  rw [flatMap_replicate_length T]
  have := fun h => hT.lenBox h
  simp only [hsum, codeLen] at this ⊢
  have e : ∀ h, (T.box (HKind.code h)).numOfBits = codeLen h - 1 := fun h => by have := hT.lenBox h; omega
  simp only [e, codeLen]
  omega

theorem handBits_length {T : CodeTables} (hT : Good T) (num : Color → Nat → Nat) :
    (handBits T num handOrder).length = hsum fun h => (codeLen h - 1) * (num .black h.code + num .white h.code) := by
  have e : ∀ c h, (T.hand (HKind.code h) c).numOfBits = codeLen h - 1 := fun c h => by have := hT.lenHand c h; omega
  have e1 : handBits T num handOrder = ((List.range 7).flatMap fun hp => (List.replicate (num .black hp) (T.hand hp .black).bits).flatten) ++
      ((List.range 7).flatMap fun hp => (List.replicate (num .white hp) (T.hand hp .white).bits).flatten) := by
    unfold handBits handOrder
    simp only [List.flatMap_cons, List.flatMap_nil, List.append_nil, List.flatMap_append, List.flatMap_map]
  rw [e1, List.length_append, flatMap_replicate_length T (num .black) (fun hp => T.hand hp .black),
    flatMap_replicate_length T (num .white) (fun hp => T.hand hp .white)]
  simp only [e, hsum, codeLen]
  omega

/-- With both kings on the board exactly two squares hold a king. -/
theorem kingCount_two {p : Position} (h : Consistent p) {kb kw : Square} (hb : (absPos p).board kb = some (.black, .king))
    (hw : (absPos p).board kw = some (.white, .king)) : kingCount (absPos p).board (List.finRange 81) = 2 := by
  have e : ∀ s, (((absPos p).board s).map (·.2) = some Kind.king) ↔ (s = kb ∨ s = kw) := by
    intro s
    constructor
    · intro hs
      rcases hx : (absPos p).board s with _ | ⟨c, k⟩
      · rw [hx] at hs; cases hs
      · rw [hx] at hs
        simp only [Option.map_some, Option.some.injEq] at hs
        subst hs
        have h1 := (h.king c s).mpr hx
        cases c
        · left; have := (h.king .black kb).mpr hb; rw [h1] at this; exact Option.some.inj this
        · right; have := (h.king .white kw).mpr hw; rw [h1] at this; exact Option.some.inj this
    · rintro (rfl | rfl)
      · rw [hb]; rfl
      · rw [hw]; rfl
  have hne : kb ≠ kw := by rintro rfl; rw [hb] at hw; cases hw
  unfold kingCount
  simp only [e]
  have h1 := countP_sum (fun s => decide (s = kb ∨ s = kw))
  have h2 : ∀ s : Square, (if decide (s = kb ∨ s = kw) = true then (1 : ℤ) else 0) = (if s = kb then 1 else 0) + (if s = kw then 1 else 0) := by
    intro s
    by_cases a : s = kb
    · subst a; simp [hne]
    · simp [a]
  simp only [h2, Finset.sum_add_distrib, Finset.sum_ite_eq', Finset.mem_univ, if_true] at h1
  omega

/-! ### The whole encoding -/

/-- All bits of an encoded position. -/
def posBits (T : CodeTables) (p : Position) (box : Nat → Nat) : List Bool :=
  [decide (p.turn = .white)] ++ bitsOf (BitVec.ofNat 8 (p.kingNo .black)) 7 ++ bitsOf (BitVec.ofNat 8 (p.kingNo .white)) 7 ++
    boardBits T p.piece (List.finRange 81) ++ handBits T (fun c => (p.hand c).numOf) handOrder ++ boxBits T box (List.range 7)

/-- What remains in the box. -/
def boxOf (q : Pos) (i : Nat) : Nat :=
  match i with
  | 0 => 18 - q.material .pawn | 1 => 4 - q.material .lance | 2 => 4 - q.material .knight | 3 => 4 - q.material .silver
  | 4 => 4 - q.material .gold | 5 => 2 - q.material .bishop | 6 => 2 - q.material .rook | _ => 0

theorem posBits_length {T : CodeTables} (hT : Good T) {p : Position} (h : Consistent p) (hs : (absPos p).InSet)
    {kb kw : Square} (hb : (absPos p).board kb = some (.black, .king)) (hw : (absPos p).board kw = some (.white, .king)) :
    (posBits T p (boxOf (absPos p))).length = 256 := by
  have hk := kingCount_two h hb hw
  have hp : p.piece = fun s => pieceCode ((absPos p).board s) := funext h.code
  have hl := boardBits_length hT (absPos p).board (List.finRange 81)
  rw [hk, ← hp, List.length_finRange] at hl
  have hl' : (boardBits T p.piece (List.finRange 81)).length + 2 = 81 + hsum fun h => (codeLen h - 1) * (absPos p).onBoard h := hl
  have hh : (handBits T (fun c => (p.hand c).numOf) handOrder).length =
      hsum fun h => (codeLen h - 1) * ((absPos p).hand .black h + (absPos p).hand .white h) := handBits_length hT _
  have hx : (boxBits T (boxOf (absPos p)) (List.range 7)).length = hsum fun h => (codeLen h - 1) * (h.total - (absPos p).material h) := by
    rw [boxBits_length hT]; rfl
  unfold posBits
  simp only [List.length_append, bitsOf_length, hh, hx, List.length_cons, List.length_nil]
  have e1 := hs .pawn; have e2 := hs .lance; have e3 := hs .knight; have e4 := hs .silver
  have e5 := hs .gold; have e6 := hs .bishop; have e7 := hs .rook
  clear hl hh hx hk hp
  generalize (boardBits T p.piece (List.finRange 81)).length = L at *
  generalize absPos p = q at *
  simp only [hsum, codeLen, HKind.total, Pos.material] at *
  omega

theorem handFold_code (cnt : Nat → Int) (num : Color → Nat → Nat) (h : HKind) :
    (handOrder.foldl (fun cnt x => upd cnt x.2 (cnt x.2 - (num x.1 x.2 : Int))) cnt) h.code =
      cnt h.code - num .black h.code - num .white h.code := by
  cases h <;> simp [handOrder, List.range, List.range.loop, upd, HKind.code]

theorem box_count_bits (T : CodeTables) {p : Position} (h : Consistent p) (hs : (absPos p).InSet) :
    boxBits T (fun i => ((handOrder.foldl (fun cnt x => upd cnt x.2 (cnt x.2 - ((p.hand x.1).numOf x.2 : Int)))
      (fun i => boxStart i - boxCount p.piece (List.finRange 81) i)) i).toNat) (List.range 7) =
      boxBits T (boxOf (absPos p)) (List.range 7) := by
  have hp : p.piece = fun s => pieceCode ((absPos p).board s) := funext h.code
  unfold boxBits
  rw [List.flatMap_def, List.flatMap_def]
  congr 1
  apply List.map_congr_left
  intro i hi
  obtain ⟨hk, rfl⟩ := hcode_surj i (List.mem_range.mp hi)
  congr 2
  beta_reduce
  rw [handFold_code _ (fun c => (p.hand c).numOf) hk]
  rw [hp, boxCount_eq]
  have := hs hk
  simp only [Pos.material, Pos.onBoard] at this
  cases hk <;> simp only [HKind.code, boxOf, Pos.material, Pos.onBoard, boxStart, absPos] at this ⊢ <;> omega

theorem encode_spec {T : CodeTables} (hT : Good T) {p : Position} (h : Consistent p) (hs : (absPos p).InSet)
    {kb kw : Square} (hb : (absPos p).board kb = some (.black, .king)) (hw : (absPos p).board kw = some (.white, .king)) :
    ∃ bs, encodePos T p = .ok bs ∧ Wrote bs (posBits T p (boxOf (absPos p))) := by
  have hlen := posBits_length hT h hs hb hw
  have hp : p.piece = fun s => pieceCode ((absPos p).board s) := funext h.code
  unfold posBits at hlen
  simp only [List.length_append, bitsOf_length] at hlen
  obtain ⟨b1, e1, w1⟩ := Wrote.start.putBit (by simp) (BitVec.ofNat 8 p.turn.idx) (by
    intro j hj
    cases p.turn
    · simp [Color.idx]
    · simp [Color.idx]; omega)
  have ht : (BitVec.ofNat 8 p.turn.idx).getLsbD 0 = decide (p.turn = .white) := by cases p.turn <;> rfl
  rw [ht, List.nil_append] at w1
  obtain ⟨b2, e2, w2⟩ := w1.putBits 7 (BitVec.ofNat 8 (p.kingNo .black)) (by simp)
  obtain ⟨b3, e3, w3⟩ := w2.putBits 7 (BitVec.ofNat 8 (p.kingNo .white)) (by simp [bitsOf_length])
  obtain ⟨b4, e4, w4⟩ := w3.encBoard (T := T) (p := p) (List.finRange 81) boxStart
    (by simp only [List.length_append, bitsOf_length]; omega)
  obtain ⟨b5, e5, w5⟩ := w4.encHands (T := T) (p := p) handOrder (fun i => boxStart i - boxCount p.piece (List.finRange 81) i)
    (by simp only [List.length_append, bitsOf_length]; omega)
  have hcnt := box_count_bits T h hs
  obtain ⟨b6, e6, w6⟩ := w5.encBox (T := T) (List.range 7) _
    (by rw [hcnt]; simp only [List.length_append, bitsOf_length]; omega)
  rw [hcnt] at w6
  refine ⟨b6, ?_, w6⟩
  unfold encodePos
  simp only [e1, e2, e3, e4, e5, Out.bind_ok]
  exact e6

/-! ### Decoding -/

/-- The board with the squares of `l` cleared except for kings. -/
def kingsOn (b : Square → Option (Color × Kind)) (l : List Square) (s : Square) : Option (Color × Kind) :=
  if s ∈ l ∧ (b s).map (·.2) ≠ some Kind.king then none else b s

theorem Rd.decBoard {T : CodeTables} (hT : Good T) (b : Square → Option (Color × Kind)) (l : List Square) (hnd : l.Nodup)
    {p : Position} {bs : BitStream} {rest : List Bool} (hr : Raw p (kingsOn b l))
    (h : Rd bs (boardBits T (fun s => pieceCode (b s)) l ++ rest)) :
    ∃ p' bs', Position.decBoard T l p bs = .ok (p', bs') ∧ Raw p' b ∧ p'.hand = p.hand ∧ p'.turn = p.turn ∧ p'.prev = p.prev ∧
      Rd bs' rest := by
  induction l generalizing p bs with
  | nil =>
    refine ⟨p, bs, rfl, ?_, rfl, rfl, rfl, by simpa [boardBits] using h⟩
    have : kingsOn b [] = b := by funext s; simp [kingsOn]
    rw [this] at hr; exact hr
  | cons s l ih =>
    have hnd' := List.nodup_cons.mp hnd
    simp only [boardBits, List.flatMap_cons, List.append_assoc] at h
    have hpc := hr.code s
    unfold Position.decBoard
    by_cases hk : (b s).map (·.2) = some Kind.king
    · have e1 : kingsOn b (s :: l) = kingsOn b l := by
        funext t
        unfold kingsOn
        by_cases ht : t = s
        · subst ht; simp [hk]
        · exact if_congr (and_congr_left' (by simp [ht])) rfl rfl
      rw [e1] at hr
      obtain ⟨⟨c, k⟩, hb, hkk⟩ := Option.map_eq_some_iff.mp hk
      simp only at hkk
      subst hkk
      have e2 : pieceType (p.piece s) = PT.King := by
        rw [hr.code s, show kingsOn b l s = b s by simp [kingsOn, hk], hb]; exact pieceType_code c .king
      rw [if_pos e2]
      have e3 : cellBits T (pieceCode (b s)) = [] := by
        unfold cellBits; rw [if_pos]; rw [hb]; exact pieceType_code c .king
      rw [e3, List.nil_append] at h
      exact ih hnd'.2 hr h
    · have e0 : kingsOn b (s :: l) s = none := by simp [kingsOn, hk]
      rw [e0] at hpc
      have e2 : ¬ pieceType (p.piece s) = PT.King := by rw [hpc]; decide
      rw [if_neg e2]
      have e4 : readList T.boardHash 9 ⟨0, 0⟩ (cellBits T (pieceCode (b s))) = some (pieceCode (b s), []) := by
        rcases hb : b s with _ | ⟨c, k⟩
        · exact hT.empty
        · have hne : k ≠ .king := by rintro rfl; rw [hb] at hk; exact hk rfl
          have e5 : cellBits T (pieceCode (some (c, k))) = (T.board (mkPiece c k.code)).bits := by
            unfold cellBits; rw [if_neg]; rfl
            rw [pieceType_code, code_king]; exact hne
          rw [e5]; exact hT.board c k hne
      have e6 := readList_append _ _ _ _ (boardBits T (fun s => pieceCode (b s)) l ++ rest) _ _ e4
      rw [List.nil_append] at e6
      obtain ⟨bs1, h1, h2⟩ := Rd.readCode T.boardHash 9 ⟨0, 0⟩ _ _ _ e6 h
      rw [h1]
      simp only [Out.bind_ok]
      have hr' : Raw (if pieceCode (b s) ≠ 0 then p.setPiece (pieceCode (b s)) s else p) (kingsOn b l) := by
        have e7 : kingsOn b l = Pos.set (kingsOn b (s :: l)) s (b s) := by
          funext t
          unfold Pos.set kingsOn
          by_cases ht : t = s
          · subst ht; simp [hnd'.1]
          · rw [if_neg ht]
            exact if_congr (and_congr_left' (by simp [ht])) rfl rfl
        rw [e7]
        rcases hb : b s with _ | ⟨c, k⟩
        · rw [if_neg (by simp [pieceCode])]
          have : Pos.set (kingsOn b (s :: l)) s none = kingsOn b (s :: l) := by
            funext t; unfold Pos.set; split
            · next ht => rw [ht, e0]
            · rfl
          rw [this]; exact hr
        · rw [if_pos (by intro e; have := pieceCode_eq_zero.mp e; cases this)]
          exact hr.setPiece e0 c k
      obtain ⟨p', bs', g1, g2, g3, g4, g5, g6⟩ := ih hnd'.2 hr' h2
      refine ⟨p', bs', g1, g2, ?_, ?_, ?_, g6⟩
      · rw [g3]; split <;> rfl
      · rw [g4]; split <;> rfl
      · rw [g5]; split <;> rfl

/-- What one hand code does to the position. -/
def addHand (p : Position) (pc : Piece) : Position :=
  if pc = 0 then p
  else { p with hand := upd p.hand (pieceColor pc) ((p.hand (pieceColor pc)).plusOne (ptToHand (pieceType pc))) }

theorem Rd.decHands {T : CodeTables} (items : List (List Bool × Piece)) (hne : ∀ x ∈ items, x.1 ≠ [])
    (hi : ∀ x ∈ items, readList T.handHash 9 ⟨0, 0⟩ x.1 = some (x.2, [])) (n : Nat) (hn : items.length < n) {p : Position}
    {bs : BitStream} (h : Rd bs (items.flatMap (·.1))) :
    Position.decHands T n p bs = .ok (items.foldl (fun p x => addHand p x.2) p) := by
  induction items generalizing n p bs with
  | nil =>
    cases n with
    | zero => omega
    | succ n =>
      unfold Position.decHands
      have := h.pos; have := h.lt
      rw [if_pos (by simp at *; omega)]; rfl
  | cons x l ih =>
    cases n with
    | zero => simp at hn
    | succ n =>
      simp only [List.flatMap_cons] at h
      have hx := hne x (by simp)
      have hp := h.pos
      have hlt := h.lt
      have hlen : 0 < x.1.length := List.length_pos_of_ne_nil hx
      unfold Position.decHands
      simp only [List.length_append] at hp
      rw [if_neg (by omega)]
      have e6 := readList_append _ _ _ _ (l.flatMap (·.1)) _ _ (hi x (by simp))
      rw [List.nil_append] at e6
      obtain ⟨bs1, h1, h2⟩ := Rd.readCode T.handHash 9 ⟨0, 0⟩ _ _ _ e6 h
      rw [h1]
      simp only [Out.bind_ok, List.foldl_cons]
      have ihn := fun (q : Position) => ih (fun y hy => hne y (by simp [hy])) (fun y hy => hi y (by simp [hy])) n
        (by simp at hn; omega) (p := q) h2
      by_cases h0 : x.2 = 0
      · rw [if_pos h0, ihn]
        simp [addHand, h0]
      · rw [if_neg h0, ihn]
        simp [addHand, h0]

/-- The hand codes written for a position. -/
def handItems (T : CodeTables) (num : Color → Nat → Nat) (l : List (Color × HandPiece)) : List (List Bool × Piece) :=
  l.flatMap fun x => List.replicate (num x.1 x.2) ((T.hand x.2 x.1).bits, mkPiece x.1 (handToPt x.2))

/-- The box codes written for a position. -/
def boxItems (T : CodeTables) (num : Nat → Nat) (l : List HandPiece) : List (List Bool × Piece) :=
  l.flatMap fun hp => List.replicate (num hp) ((T.box hp).bits, 0)

theorem handItems_bits (T : CodeTables) (num : Color → Nat → Nat) (l : List (Color × HandPiece)) :
    (handItems T num l).flatMap (·.1) = handBits T num l := by
  unfold handItems handBits
  rw [List.flatMap_assoc]
  congr 1
  funext x
  rw [List.flatMap_def, List.map_replicate]

theorem boxItems_bits (T : CodeTables) (num : Nat → Nat) (l : List HandPiece) :
    (boxItems T num l).flatMap (·.1) = boxBits T num l := by
  unfold boxItems boxBits
  rw [List.flatMap_assoc]
  congr 1
  funext x
  rw [List.flatMap_def, List.map_replicate]

theorem fold_box (items : List (List Bool × Piece)) (h : ∀ x ∈ items, x.2 = 0) (p : Position) :
    items.foldl (fun p x => addHand p x.2) p = p := by
  induction items generalizing p with
  | nil => rfl
  | cons x l ih =>
    rw [List.foldl_cons, ih (fun y hy => h y (by simp [hy]))]
    simp [addHand, h x (by simp)]

/-- Adding `k` pieces of one kind. -/
theorem fold_hand_replicate (bits : List Bool) (c : Color) (h : HKind) (k : Nat) (p : Position) (n : Nat → Nat)
    (hh : HandIs (p.hand c) n) (hn : ∀ i < 7, n i ≤ setSize i) (hk : n h.code + k ≤ setSize h.code) :
    ∃ p', (List.replicate k (bits, mkPiece c (handToPt h.code))).foldl (fun p x => addHand p x.2) p = p' ∧
      p' = { p with hand := p'.hand } ∧ p'.hand c.opp = p.hand c.opp ∧
      HandIs (p'.hand c) (fun i => if i = h.code then n i + k else n i) := by
  induction k generalizing p n with
  | zero =>
    refine ⟨p, rfl, rfl, rfl, ?_⟩
    have : (fun i => if i = h.code then n i + 0 else n i) = n := by funext i; simp
    rw [this]; exact hh
  | succ k ih =>
    simp only [List.replicate_succ, List.foldl_cons]
    have hpc : pieceColor (mkPiece c (handToPt h.code)) = c := by cases c <;> cases h <;> rfl
    have hpt : ptToHand (pieceType (mkPiece c (handToPt h.code))) = h.code := by cases c <;> cases h <;> rfl
    have h0 : ¬ mkPiece c (handToPt h.code) = 0 := by cases c <;> cases h <;> decide
    have e : addHand p (mkPiece c (handToPt h.code)) = { p with hand := upd p.hand c ((p.hand c).plusOne h.code) } := by
      unfold addHand; rw [if_neg h0, hpc, hpt]
    rw [e]
    have h1 := C09_plusOne _ n hh hn h.code (hcode_lt h) (by omega)
    obtain ⟨p', g1, g2, g3, g4⟩ := ih { p with hand := upd p.hand c ((p.hand c).plusOne h.code) }
      (fun i => if i = h.code then n i + 1 else n i) (by
        show HandIs ((upd p.hand c ((p.hand c).plusOne h.code)) c) _
        rw [upd_same]; exact h1)
      (by intro i hi; split
          · next e => subst e; omega
          · exact hn i hi)
      (by simp; omega)
    refine ⟨p', g1, g2, ?_, ?_⟩
    · rw [g3]; exact upd_ne _ _ (by cases c <;> decide)
    · have e2 : (fun i => if i = h.code then n i + (k + 1) else n i) =
          (fun i => if i = h.code then (fun i => if i = h.code then n i + 1 else n i) i + k else (fun i => if i = h.code then n i + 1 else n i) i) := by
        funext i; by_cases hi : i = h.code
        · simp [hi]; omega
        · simp [hi]
      rw [e2]; exact g4

theorem fold_hands (T : CodeTables) (num : Color → Nat → Nat) (hnum : ∀ c, ∀ i < 7, num c i ≤ setSize i)
    (l : List (Color × HandPiece)) (hnd : l.Nodup) (h7 : ∀ x ∈ l, x.2 < 7) (p : Position) (done : Color → Nat → Nat)
    (hd : ∀ c i, done c i ≤ num c i) (hz : ∀ x ∈ l, done x.1 x.2 = 0) (hh : ∀ c, HandIs (p.hand c) (done c)) :
    ∃ p', (handItems T num l).foldl (fun p x => addHand p x.2) p = p' ∧ p' = { p with hand := p'.hand } ∧
      ∀ c, HandIs (p'.hand c) (fun i => if (c, i) ∈ l then num c i else done c i) := by
  induction l generalizing p done with
  | nil => exact ⟨p, rfl, rfl, fun c => by simpa using hh c⟩
  | cons x l ih =>
    obtain ⟨c, i⟩ := x
    have hnd' := List.nodup_cons.mp hnd
    obtain ⟨h, rfl⟩ := hcode_surj i (h7 (c, i) (by simp))
    have hzero := hz (c, h.code) (by simp)
    simp only at hzero
    simp only [handItems, List.flatMap_cons, List.foldl_append]
    obtain ⟨p1, g1, g2, g3, g4⟩ := fold_hand_replicate (T.hand h.code c).bits c h (num c h.code) p (done c) (hh c)
      (fun i hi => le_trans (hd c i) (hnum c i hi)) (by rw [hzero]; simpa using hnum c h.code (hcode_lt h))
    rw [g1]
    obtain ⟨p', k1, k2, k3⟩ := ih hnd'.2 (fun y hy => h7 y (by simp [hy])) p1
      (fun c' i => if c' = c ∧ i = h.code then num c' i else done c' i)
      (by intro c' i; split
          · exact le_refl _
          · exact hd c' i)
      (by
        intro y hy
        have : ¬ (y.1 = c ∧ y.2 = h.code) := by rintro ⟨a, b⟩; apply hnd'.1; rw [← a, ← b]; exact hy
        simp only [this, if_false]
        exact hz y (by simp [hy]))
      (by
        intro c'
        by_cases hc : c' = c
        · subst hc
          have : (fun i => if c' = c' ∧ i = h.code then num c' i else done c' i) = (fun i => if i = h.code then done c' i + num c' h.code else done c' i) := by
            funext i; by_cases hi : i = h.code
            · subst hi; simp [hzero]
            · simp [hi]
          rw [this]; exact g4
        · have : (fun i => if c' = c ∧ i = h.code then num c' i else done c' i) = done c' := by funext i; simp [hc]
          rw [this]
          have : c' = c.opp := by cases c <;> cases c' <;> first | rfl | exact absurd rfl hc
          rw [this, g3]; exact hh _)
    refine ⟨p', k1, ?_, ?_⟩
    · rw [k2, g2]
    · intro c'
      have := k3 c'
      have e : (fun i => if (c', i) ∈ (c, h.code) :: l then num c' i else done c' i) =
          (fun i => if (c', i) ∈ l then num c' i else if c' = c ∧ i = h.code then num c' i else done c' i) := by
        funext i
        by_cases h1 : (c', i) ∈ l
        · simp [h1]
        · simp [h1]
      rw [e]; exact this

theorem handOrder_nodup : handOrder.Nodup := by decide
theorem handOrder_lt : ∀ x ∈ handOrder, x.2 < 7 := by decide
theorem mem_handOrder (c : Color) (h : HKind) : (c, h.code) ∈ handOrder := by cases c <;> cases h <;> decide

theorem handItems_ok {T : CodeTables} (hT : Good T) (num : Color → Nat → Nat) (l : List (Color × HandPiece))
    (h7 : ∀ x ∈ l, x.2 < 7) : ∀ x ∈ handItems T num l, x.1 ≠ [] ∧ readList T.handHash 9 ⟨0, 0⟩ x.1 = some (x.2, []) := by
  intro x hx
  unfold handItems at hx
  obtain ⟨⟨c, i⟩, hm, hx⟩ := List.mem_flatMap.mp hx
  rw [List.eq_of_mem_replicate hx]
  obtain ⟨h, rfl⟩ := hcode_surj i (h7 _ hm)
  refine ⟨?_, ?_⟩
  · intro e
    have := congrArg List.length e
    have hl := hT.lenHand c h
    simp only [HuffmanCode.bits, bitsOf_length, List.length_nil] at this
    rw [this] at hl; cases h <;> simp [codeLen] at hl
  · have := hT.hand c h
    rw [this]
    cases h <;> rfl

theorem boxItems_ok {T : CodeTables} (hT : Good T) (num : Nat → Nat) : ∀ x ∈ boxItems T num (List.range 7),
    x.1 ≠ [] ∧ readList T.handHash 9 ⟨0, 0⟩ x.1 = some (x.2, []) ∧ x.2 = 0 := by
  intro x hx
  unfold boxItems at hx
  obtain ⟨i, hm, hx⟩ := List.mem_flatMap.mp hx
  rw [List.eq_of_mem_replicate hx]
  obtain ⟨h, rfl⟩ := hcode_surj i (List.mem_range.mp hm)
  refine ⟨?_, hT.box h, rfl⟩
  intro e
  have := congrArg List.length e
  have hl := hT.lenBox h
  simp only [HuffmanCode.bits, bitsOf_length, List.length_nil] at this
  rw [this] at hl; cases h <;> simp [codeLen] at hl

theorem items_length (items : List (List Bool × Piece)) (h : ∀ x ∈ items, x.1 ≠ []) :
    items.length ≤ (items.flatMap (·.1)).length := by
  induction items with
  | nil => simp
  | cons x l ih =>
    have h1 := ih fun y hy => h y (by simp [hy])
    have h2 := List.length_pos_of_ne_nil (h x (by simp))
    simp only [List.flatMap_cons, List.length_append, List.length_cons]
    omega

theorem pos_ext {q q' : Pos} (h1 : q.board = q'.board) (h2 : q.hand = q'.hand) (h3 : q.turn = q'.turn) : q = q' := by
  cases q; cases q'; cases h1; cases h2; cases h3; rfl

/-- Decoding what was encoded. -/
theorem decode_spec (Z : Zobrist) {T : CodeTables} (hT : Good T) {p : Position} (h : Consistent p) (hs : (absPos p).InSet)
    {kb kw : Square} (hb : (absPos p).board kb = some (.black, .king)) (hw : (absPos p).board kw = some (.white, .king))
    {buf : Fin 32 → BitVec 8} (hr : Rd (BitStream.start buf) (posBits T p (boxOf (absPos p)))) :
    ∃ p', decodePos Z T buf = .ok p' ∧ absPos p' = absPos p ∧ Consistent p' ∧ KeysOK Z p' ∧
      p'.st.checkersBB = p'.findCheckers ∧ p'.gamePly = 1 ∧ p'.prev = [] := by
  have hkb : p.kingNo .black = kb.val := by unfold kingNo; rw [(h.king .black kb).mpr hb]
  have hkw : p.kingNo .white = kw.val := by unfold kingNo; rw [(h.king .white kw).mpr hw]
  have hp : p.piece = fun s => pieceCode ((absPos p).board s) := funext h.code
  have hone : OneKing (absPos p).board := by
    intro c s t h1 h2
    have a := (h.king c s).mpr h1
    have b := (h.king c t).mpr h2
    rw [a] at b; exact Option.some.inj b
  have hne : kb ≠ kw := by rintro rfl; rw [hb] at hw; cases hw
  unfold posBits at hr
  rw [hkb, hkw] at hr
  simp only [List.append_assoc, List.cons_append, List.nil_append] at hr
  obtain ⟨e1, r1⟩ := hr.getBit
  obtain ⟨b2, e2, r2⟩ := r1.getBits (by omega)
  obtain ⟨b3, e3, r3⟩ := r2.getBits (by omega)
  have hv : ∀ s : Square, (BitVec.ofNat 8 s.val).toNat = s.val := by intro s; simp; omega
  rw [hp] at r3
  -- the two kings
  have hraw0 : Raw { Position.clear with turn := if decide (p.turn = .white) = true then .white else .black } (fun _ => none) :=
    Raw.clear.congr rfl rfl rfl
  have hraw1 := hraw0.setPiece (s := kb) rfl .black .king
  have hraw2 := hraw1.setPiece (s := kw) (by unfold Pos.set; rw [if_neg hne.symm]) .white .king
  have ek : Pos.set (Pos.set (fun _ => none) kb (some (Color.black, Kind.king))) kw (some (Color.white, Kind.king)) =
      kingsOn (absPos p).board (List.finRange 81) := by
    funext s
    unfold Pos.set kingsOn
    by_cases h1 : s = kw
    · subst h1; simp [hw]
    · by_cases h2 : s = kb
      · subst h2; simp [hb, h1]
      · simp only [h1, h2, if_false, List.mem_finRange, true_and]
        by_cases h3 : ((absPos p).board s).map (·.2) = some Kind.king
        · exfalso
          obtain ⟨⟨c, k⟩, hx, hk⟩ := Option.map_eq_some_iff.mp h3
          simp only at hk; subst hk
          cases c
          · exact h2 (hone .black _ _ hx hb)
          · exact h1 (hone .white _ _ hx hw)
        · rw [if_pos h3]
  rw [ek] at hraw2
  obtain ⟨p2, hp2⟩ : ∃ x, x = (({ Position.clear with turn := if decide (p.turn = .white) = true then .white else .black } : Position).setPiece
      (mkPiece .black PT.King) kb).setPiece (mkPiece .white PT.King) kw := ⟨_, rfl⟩
  replace hraw2 : Raw p2 (kingsOn (absPos p).board (List.finRange 81)) := by rw [hp2]; exact hraw2
  have hand2 : p2.hand = fun _ => Hand.empty := by rw [hp2]; rfl
  have turn2 : p2.turn = p.turn := by
    rw [hp2]
    show (if decide (p.turn = .white) = true then Color.white else .black) = p.turn
    cases p.turn <;> rfl
  have prev2 : p2.prev = [] := by rw [hp2]; rfl
  obtain ⟨p4, b4, e4, raw4, hand4, turn4, prev4, r4⟩ := Rd.decBoard hT (absPos p).board (List.finRange 81) (List.nodup_finRange 81) hraw2 r3
  -- hands
  have hnum : ∀ c, ∀ i < 7, (p.hand c).numOf i ≤ setSize i := by
    intro c i hi
    obtain ⟨hk, rfl⟩ := hcode_surj i hi
    rw [← total_eq]; exact InSet.hand_le hs c hk
  obtain ⟨items, hitems⟩ : ∃ x, x = handItems T (fun c => (p.hand c).numOf) handOrder ++ boxItems T (boxOf (absPos p)) (List.range 7) := ⟨_, rfl⟩
  have hbits : items.flatMap (·.1) = handBits T (fun c => (p.hand c).numOf) handOrder ++ boxBits T (boxOf (absPos p)) (List.range 7) := by
    rw [hitems, List.flatMap_append, handItems_bits, boxItems_bits]
  rw [← hbits] at r4
  have hok1 := handItems_ok hT (fun c => (p.hand c).numOf) handOrder handOrder_lt
  have hok2 := boxItems_ok hT (boxOf (absPos p))
  have hnemp : ∀ x ∈ items, x.1 ≠ [] := by
    intro x hx; rw [hitems] at hx
    rcases List.mem_append.mp hx with hx | hx
    · exact (hok1 x hx).1
    · exact (hok2 x hx).1
  have hread : ∀ x ∈ items, readList T.handHash 9 ⟨0, 0⟩ x.1 = some (x.2, []) := by
    intro x hx; rw [hitems] at hx
    rcases List.mem_append.mp hx with hx | hx
    · exact (hok1 x hx).2
    · exact (hok2 x hx).2.1
  have hcount : items.length < 257 - (8 * b4.data + b4.curr) := by
    have := items_length items hnemp
    have := r4.pos
    omega
  have e5 := r4.decHands items hnemp hread _ hcount (p := p4)
  have hempty : ∀ c, HandIs (p4.hand c) ((fun _ _ => 0 : Color → Nat → Nat) c) := by
    intro c; rw [hand4, hand2]; exact C09_empty
  obtain ⟨p5, g1, g2, g3⟩ := fold_hands T (fun c => (p.hand c).numOf) hnum handOrder handOrder_nodup handOrder_lt p4 (fun _ _ => 0)
    (fun _ _ => Nat.zero_le _) (fun _ _ => rfl) hempty
  rw [hitems, List.foldl_append, g1, fold_box _ (fun x hx => (hok2 x hx).2.2)] at e5
  have raw5 : Raw { p5 with gamePly := 1 } (absPos p).board := by
    rw [g2]; exact raw4.congr rfl rfl rfl
  refine ⟨finish Z { p5 with gamePly := 1 }, ?_, ?_, finish_consistent Z raw5 hone (fun c => (g3 c).wf), finish_keys Z _, finish_checkers Z _, rfl, ?_⟩
  · have hbody : decodeBody T buf = (Position.decBoard T (List.finRange 81) p2 b3).bind fun (p, bs) => Position.decHands T (257 - (8 * bs.data + bs.curr)) p bs := by
      unfold decodeBody
      rw [e1]
      simp only [Out.bind_ok]
      rw [e2]
      simp only [Out.bind_ok]
      rw [e3]
      simp only [Out.bind_ok, hv, Fin.is_lt, dif_pos, Fin.eta, hp2]
    unfold decodePos
    rw [hbody, e4]
    simp only [Out.bind_ok]
    rw [e5]
    rfl
  · apply pos_ext
    · exact (raw5.congr (q := finish Z { p5 with gamePly := 1 }) rfl rfl rfl).abs
    · funext c hk
      show (p5.hand c).numOf hk.code = (p.hand c).numOf hk.code
      rw [(g3 c).counts _ (hcode_lt hk), if_pos (mem_handOrder c hk)]
    · show p5.turn = p.turn
      rw [g2]
      show p4.turn = p.turn
      rw [turn4, turn2]
  · show p5.prev = []
    rw [g2]
    show p4.prev = []
    rw [prev4, prev2]

end Verif
