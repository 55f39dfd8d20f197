import Verif.Lemmas.HcpRound

namespace Verif
open Spec Bitboard Position

/-! ### Writing past the buffer -/

theorem Wrote.putBit_full {bs : BitStream} {bits : List Bool} (h : Wrote bs bits) (hl : bits.length = 256) (v : BitVec 8) :
    bs.putBit v = .ub := by
  have hp := h.pos
  have hlt := h.lt
  unfold BitStream.putBit
  rw [dif_neg (by omega)]

theorem Wrote.putBits_over {bs : BitStream} {bits : List Bool} (h : Wrote bs bits) (n : Nat) (v : BitVec 8)
    (h0 : bits.length ≤ 256) (hl : 256 < bits.length + n) : bs.putBits v n = .ub := by
  induction n generalizing bs bits v with
  | zero => omega
  | succ n ih =>
    unfold BitStream.putBits
    by_cases hf : bits.length = 256
    · rw [h.putBit_full hf]; rfl
    · obtain ⟨bs1, h1, h2⟩ := h.putBit (by omega) (v &&& 1#8) (by
        intro j hj
        rw [BitVec.getLsbD_and]
        simp; omega)
      rw [h1]
      exact ih h2 _ (by simp; omega) (by simp; omega)

theorem Wrote.encBoard_over {T : CodeTables} {p : Position} (l : List Square) {bs : BitStream} {bits : List Bool} (cnt : Nat → Int)
    (h : Wrote bs bits) (h0 : bits.length ≤ 256) (hl : 256 < bits.length + (boardBits T p.piece l).length) :
    Position.encBoard T p l bs cnt = .ub := by
  induction l generalizing bs bits cnt with
  | nil => simp [boardBits] at hl; omega
  | cons s l ih =>
    simp only [boardBits, List.flatMap_cons] at hl
    unfold Position.encBoard
    by_cases hk : pieceType (p.piece s) = PT.King
    · simp only [hk, if_true]
      have e : cellBits T (p.piece s) = [] := by unfold cellBits; rw [if_pos hk]
      rw [e, List.nil_append] at hl
      exact ih cnt h h0 hl
    · simp only [hk, if_false]
      have e : cellBits T (p.piece s) = bitsOf (T.board (p.piece s)).code (T.board (p.piece s)).numOfBits := by
        unfold cellBits; rw [if_neg hk]; rfl
      rw [e] at hl
      simp only [List.length_append, bitsOf_length] at hl
      by_cases hf : bits.length + (T.board (p.piece s)).numOfBits ≤ 256
      · obtain ⟨bs1, h1, h2⟩ := h.putBits (T.board (p.piece s)).numOfBits (T.board (p.piece s)).code hf
        rw [h1]
        exact ih _ h2 (by simp only [List.length_append, bitsOf_length]; omega)
          (by simp only [List.length_append, bitsOf_length, boardBits]; omega)
      · rw [h.putBits_over _ _ h0 (by omega)]; rfl

theorem Wrote.encRepeat_over (hc : HuffmanCode) (n : Nat) {bs : BitStream} {bits : List Bool}
    (h : Wrote bs bits) (h0 : bits.length ≤ 256) (hl : 256 < bits.length + n * hc.numOfBits) :
    Position.encRepeat hc n bs = .ub := by
  induction n generalizing bs bits with
  | zero => omega
  | succ n ih =>
    rw [Nat.succ_mul] at hl
    unfold Position.encRepeat
    by_cases hf : bits.length + hc.numOfBits ≤ 256
    · obtain ⟨bs1, h1, h2⟩ := h.putBits hc.numOfBits hc.code hf
      rw [h1]
      exact ih h2 (by simp only [List.length_append, bitsOf_length]; omega)
        (by simp only [List.length_append, bitsOf_length]; omega)
    · rw [h.putBits_over _ _ h0 (by omega)]; rfl

theorem Wrote.encHands_over {T : CodeTables} {p : Position} (l : List (Color × HandPiece)) {bs : BitStream} {bits : List Bool}
    (cnt : Nat → Int) (h : Wrote bs bits) (h0 : bits.length ≤ 256)
    (hl : 256 < bits.length + (handBits T (fun c => (p.hand c).numOf) l).length) : Position.encHands T p l bs cnt = .ub := by
  induction l generalizing bs bits cnt with
  | nil => simp [handBits] at hl; omega
  | cons x l ih =>
    obtain ⟨c, hp⟩ := x
    simp only [handBits, List.flatMap_cons, List.length_append, replicate_length] at hl
    unfold Position.encHands
    by_cases hf : bits.length + (p.hand c).numOf hp * (T.hand hp c).numOfBits ≤ 256
    · obtain ⟨bs1, h1, h2⟩ := h.encRepeat (T.hand hp c) ((p.hand c).numOf hp) hf
      rw [h1]
      exact ih _ h2 (by simp only [List.length_append, replicate_length]; omega)
        (by simp only [List.length_append, replicate_length, handBits]; omega)
    · rw [h.encRepeat_over _ _ h0 (by omega)]; rfl

theorem Wrote.encBox_over {T : CodeTables} (l : List HandPiece) {bs : BitStream} {bits : List Bool}
    (cnt : Nat → Int) (h : Wrote bs bits) (h0 : bits.length ≤ 256)
    (hl : 256 < bits.length + (boxBits T (fun i => (cnt i).toNat) l).length) : Position.encBox T cnt l bs = .ub := by
  induction l generalizing bs bits with
  | nil => simp [boxBits] at hl; omega
  | cons hp l ih =>
    simp only [boxBits, List.flatMap_cons, List.length_append, replicate_length] at hl
    unfold Position.encBox
    by_cases hf : bits.length + (cnt hp).toNat * (T.box hp).numOfBits ≤ 256
    · obtain ⟨bs1, h1, h2⟩ := h.encRepeat (T.box hp) (cnt hp).toNat hf
      rw [h1]
      exact ih h2 (by simp only [List.length_append, replicate_length]; omega)
        (by simp only [List.length_append, replicate_length, boxBits]; omega)
    · rw [h.encRepeat_over _ _ h0 (by omega)]; rfl

/-- Fewer than two kings: at most one square holds a king. -/
theorem kingCount_le_one {p : Position} (h : Consistent p) {c : Color} (hk : ∀ s, (absPos p).board s ≠ some (c, .king)) :
    kingCount (absPos p).board (List.finRange 81) ≤ 1 := by
  have key : ∀ s, (((absPos p).board s).map (·.2) = some Kind.king) → (absPos p).board s = some (c.opp, .king) := by
    intro s hs
    obtain ⟨⟨c', k⟩, hx, hk'⟩ := Option.map_eq_some_iff.mp hs
    simp only at hk'; subst hk'
    have : c' ≠ c := by rintro rfl; exact hk s hx
    have : c' = c.opp := by cases c <;> cases c' <;> first | rfl | exact absurd rfl this
    rw [← this]; exact hx
  have h1 : kingCount (absPos p).board (List.finRange 81) ≤
      (List.finRange 81).countP (fun s => decide (p.kingSquare c.opp = some s)) := by
    unfold kingCount
    apply List.countP_mono_left
    intro s _ hs
    simp only [decide_eq_true_eq] at hs ⊢
    exact (h.king c.opp s).mpr (key s hs)
  refine le_trans h1 ?_
  have h2 := countP_sum (fun s => decide (p.kingSquare c.opp = some s))
  clear h1
  generalize p.kingSquare c.opp = o at h2 ⊢
  rcases o with _ | k
  · simp
  · simp only [Option.some.injEq, decide_eq_true_eq, Finset.sum_ite_eq, Finset.mem_univ, if_true] at h2 ⊢
    omega

/-- The total length when a king is missing. -/
theorem posBits_over {T : CodeTables} (hT : Good T) {p : Position} (h : Consistent p) (hs : (absPos p).InSet)
    {c : Color} (hk : ∀ s, (absPos p).board s ≠ some (c, .king)) : 256 < (posBits T p (boxOf (absPos p))).length := by
  have hk := kingCount_le_one h hk
  have hp : p.piece = fun s => pieceCode ((absPos p).board s) := funext h.code
  have hl := boardBits_length hT (absPos p).board (List.finRange 81)
  rw [← hp, List.length_finRange] at hl
  have hl' : (boardBits T p.piece (List.finRange 81)).length + kingCount (absPos p).board (List.finRange 81) =
    81 + hsum fun h => (codeLen h - 1) * (absPos p).onBoard h := hl
  have hh : (handBits T (fun c => (p.hand c).numOf) handOrder).length =
      hsum fun h => (codeLen h - 1) * ((absPos p).hand .black h + (absPos p).hand .white h) := handBits_length hT _
  have hx : (boxBits T (boxOf (absPos p)) (List.range 7)).length = hsum fun h => (codeLen h - 1) * (h.total - (absPos p).material h) := by
    rw [boxBits_length hT]; rfl
  unfold posBits
  simp only [List.length_append, bitsOf_length, hh, hx, List.length_cons, List.length_nil]
  have e1 := hs .pawn; have e2 := hs .lance; have e3 := hs .knight; have e4 := hs .silver
  have e5 := hs .gold; have e6 := hs .bishop; have e7 := hs .rook
  clear hl hh hx hp
  generalize (boardBits T p.piece (List.finRange 81)).length = L at *
  generalize kingCount (absPos p).board (List.finRange 81) = K at *
  generalize absPos p = q at *
  simp only [hsum, codeLen, HKind.total, Pos.material] at *
  omega

theorem encode_over {T : CodeTables} {p : Position} (h : Consistent p) (hs : (absPos p).InSet)
    (hlen : 256 < (posBits T p (boxOf (absPos p))).length) : encodePos T p = .ub := by
  have hp : p.piece = fun s => pieceCode ((absPos p).board s) := funext h.code
  unfold posBits at hlen
  simp only [List.length_append, bitsOf_length, List.length_cons, List.length_nil] at hlen
  obtain ⟨b1, e1, w1⟩ := Wrote.start.putBit (by simp) (BitVec.ofNat 8 p.turn.idx) (by
    intro j hj
    cases p.turn
    · simp [Color.idx]
    · simp [Color.idx]; omega)
  have ht : (BitVec.ofNat 8 p.turn.idx).getLsbD 0 = decide (p.turn = .white) := by cases p.turn <;> rfl
  rw [ht, List.nil_append] at w1
  obtain ⟨b2, e2, w2⟩ := w1.putBits 7 (BitVec.ofNat 8 (p.kingNo .black)) (by simp)
  obtain ⟨b3, e3, w3⟩ := w2.putBits 7 (BitVec.ofNat 8 (p.kingNo .white)) (by simp [bitsOf_length])
  unfold encodePos
  simp only [e1, e2, e3, Out.bind_ok]
  by_cases f4 : 15 + (boardBits T p.piece (List.finRange 81)).length ≤ 256
  swap
  · rw [w3.encBoard_over _ _ (by simp [bitsOf_length]) (by simp only [List.length_append, bitsOf_length, List.length_cons, List.length_nil]; omega)]
    rfl
  obtain ⟨b4, e4, w4⟩ := w3.encBoard (T := T) (p := p) (List.finRange 81) boxStart
    (by simp only [List.length_append, bitsOf_length, List.length_cons, List.length_nil]; omega)
  rw [e4]
  simp only [Out.bind_ok]
  by_cases f5 : 15 + (boardBits T p.piece (List.finRange 81)).length + (handBits T (fun c => (p.hand c).numOf) handOrder).length ≤ 256
  swap
  · rw [w4.encHands_over _ _ (by simp only [List.length_append, bitsOf_length, List.length_cons, List.length_nil]; omega)
      (by simp only [List.length_append, bitsOf_length, List.length_cons, List.length_nil]; omega)]
    rfl
  obtain ⟨b5, e5, w5⟩ := w4.encHands (T := T) (p := p) handOrder (fun i => boxStart i - boxCount p.piece (List.finRange 81) i)
    (by simp only [List.length_append, bitsOf_length, List.length_cons, List.length_nil]; omega)
  rw [e5]
  simp only [Out.bind_ok]
  have hcnt : boxBits T (fun i => ((handOrder.foldl (fun cnt x => upd cnt x.2 (cnt x.2 - ((p.hand x.1).numOf x.2 : Int)))
      (fun i => boxStart i - boxCount p.piece (List.finRange 81) i)) i).toNat) (List.range 7) =
      boxBits T (boxOf (absPos p)) (List.range 7) := box_count_bits T h hs
  rw [w5.encBox_over _ _ (by simp only [List.length_append, bitsOf_length, List.length_cons, List.length_nil]; omega)
    (by rw [hcnt]; simp only [List.length_append, bitsOf_length, List.length_cons, List.length_nil]; omega)]

/-! ### Decoding arbitrary bytes -/

theorem readCode_mem (hash : List (HuffmanCode × Piece)) (n : Nat) (hc : HuffmanCode) (bs bs' : BitStream) (pc : Piece)
    (h : Position.readCode hash n hc bs = .ok (pc, bs')) : pc ∈ hash.map (·.2) := by
  induction n generalizing hc bs with
  | zero => cases h
  | succ n ih =>
    unfold Position.readCode at h
    rcases hg : bs.getBit with ⟨b, bs1⟩ | _ | _
    · rw [hg] at h
      simp only [Out.bind_ok] at h
      obtain ⟨key, hkey⟩ : ∃ x : HuffmanCode, x = ⟨hc.code ||| ((if b then 1#8 else 0#8) <<< hc.numOfBits), hc.numOfBits + 1⟩ := ⟨_, rfl⟩
      rw [← hkey] at h
      rcases hv : hashValue hash key with _ | pc'
      · rw [hv] at h; exact ih _ _ h
      · rw [hv] at h
        simp only [Out.ok.injEq, Prod.mk.injEq] at h
        rw [← h.1]
        unfold hashValue at hv
        obtain ⟨e, he, rfl⟩ := Option.map_eq_some_iff.mp hv
        exact List.mem_map.mpr ⟨e, List.mem_of_find?_eq_some he, rfl⟩
    · rw [hg] at h; cases h
    · rw [hg] at h; cases h

theorem boardHash_values (T : CodeTables) : T.boardHash.map (·.2) =
    ((((List.range 15) ++ (List.range' 17 14)).filter fun pc => pieceType pc ≠ PT.King).reverse) := by
  unfold CodeTables.boardHash
  rw [List.map_map]
  exact List.map_id' _

theorem board_value {T : CodeTables} {pc : Piece} (h : pc ∈ T.boardHash.map (·.2)) : ∃ o : Option (Color × Kind), pc = pieceCode o := by
  rw [boardHash_values] at h
  have : ∀ pc ∈ ((((List.range 15) ++ (List.range' 17 14)).filter fun pc => pieceType pc ≠ PT.King).reverse), pieceCode (decodePiece pc) = pc := by
    decide +kernel
  exact ⟨decodePiece pc, (this pc h).symm⟩

/-- The board part of the decoder keeps board array and bitboards together, whatever the bytes are. -/
theorem decBoard_raw (T : CodeTables) (l : List Square) (hnd : l.Nodup) {p p' : Position} {bs bs' : BitStream}
    {b : Square → Option (Color × Kind)} (hr : Raw p b) (hl : ∀ s ∈ l, b s = none ∨ (b s).map (·.2) = some Kind.king)
    (h : Position.decBoard T l p bs = .ok (p', bs')) : ∃ b', Raw p' b' := by
  induction l generalizing p bs b with
  | nil => cases h; exact ⟨b, hr⟩
  | cons s l ih =>
    have hnd' := List.nodup_cons.mp hnd
    unfold Position.decBoard at h
    by_cases hk : pieceType (p.piece s) = PT.King
    · rw [if_pos hk] at h
      exact ih hnd'.2 hr (fun t ht => hl t (by simp [ht])) h
    · rw [if_neg hk] at h
      have hn : b s = none := by
        rcases hl s (by simp) with e | e
        · exact e
        · obtain ⟨⟨c, k⟩, hx, hkk⟩ := Option.map_eq_some_iff.mp e
          simp only at hkk; subst hkk
          exact absurd (by rw [hr.code s, hx]; exact pieceType_code c .king) hk
      rcases hc : Position.readCode T.boardHash 9 ⟨0, 0⟩ bs with ⟨pc, bs1⟩ | _ | _
      · rw [hc] at h
        simp only [Out.bind_ok] at h
        obtain ⟨o, rfl⟩ := board_value (readCode_mem _ _ _ _ _ _ hc)
        rcases o with _ | ⟨c, k⟩
        · exact ih hnd'.2 hr (fun t ht => hl t (by simp [ht])) h
        · rw [if_pos (by intro e; have := pieceCode_eq_zero.mp e; cases this)] at h
          refine ih hnd'.2 (hr.setPiece hn c k) (fun t ht => ?_) h
          have : t ≠ s := by rintro rfl; exact hnd'.1 ht
          unfold Pos.set
          rw [if_neg this]
          exact hl t (by simp [ht])
      · rw [hc] at h; cases h
      · rw [hc] at h; cases h

theorem decHands_board (T : CodeTables) (n : Nat) {p p' : Position} {bs : BitStream} (h : Position.decHands T n p bs = .ok p') :
    p'.piece = p.piece ∧ p'.byType = p.byType ∧ p'.byColor = p.byColor := by
  induction n generalizing p bs with
  | zero => cases h
  | succ n ih =>
    unfold Position.decHands at h
    split at h
    · cases h; exact ⟨rfl, rfl, rfl⟩
    · rcases hc : Position.readCode T.handHash 9 ⟨0, 0⟩ bs with ⟨pc, bs1⟩ | _ | _
      · rw [hc] at h
        simp only [Out.bind_ok] at h
        split at h
        · exact ih h
        · obtain ⟨a, b, c⟩ := ih h
          exact ⟨a, b, c⟩
      · rw [hc] at h; cases h
      · rw [hc] at h; cases h

/-- The bytes put the two kings on different squares. -/
def KingsApart (buf : Fin 32 → BitVec 8) : Prop :=
  ∀ t sq0 sq1 b1 b2 b3, (BitStream.start buf).getBit = .ok (t, b1) → b1.getBits 7 = .ok (sq0, b2) → b2.getBits 7 = .ok (sq1, b3) →
    sq0 ≠ sq1

theorem decodeBody_raw (T : CodeTables) (buf : Fin 32 → BitVec 8) (hk : KingsApart buf) (p' : Position)
    (h : decodeBody T buf = .ok p') : ∃ b, Raw p' b := by
  unfold decodeBody at h
  rcases h1 : (BitStream.start buf).getBit with ⟨t, b1⟩ | _ | _ <;> rw [h1] at h
  case error => cases h
  case ub => cases h
  simp only [Out.bind_ok] at h
  rcases h2 : b1.getBits 7 with ⟨sq0, b2⟩ | _ | _ <;> rw [h2] at h
  case error => cases h
  case ub => cases h
  simp only [Out.bind_ok] at h
  rcases h3 : b2.getBits 7 with ⟨sq1, b3⟩ | _ | _ <;> rw [h3] at h
  case error => cases h
  case ub => cases h
  simp only [Out.bind_ok] at h
  split at h
  swap
  · cases h
  next k0 =>
  split at h
  swap
  · cases h
  next k1 =>
  have hne : (⟨sq1.toNat, k1⟩ : Square) ≠ ⟨sq0.toNat, k0⟩ := by
    intro e
    exact hk t sq0 sq1 b1 b2 b3 h1 h2 h3 (BitVec.eq_of_toNat_eq (congrArg Fin.val e).symm)
  have hraw0 : Raw { Position.clear with turn := if t = true then .white else .black } (fun _ => none) :=
    Raw.clear.congr rfl rfl rfl
  have hraw1 := hraw0.setPiece (s := ⟨sq0.toNat, k0⟩) rfl .black .king
  have hraw2 := hraw1.setPiece (s := ⟨sq1.toNat, k1⟩) (by unfold Pos.set; rw [if_neg hne]) .white .king
  obtain ⟨p2, hp2⟩ : ∃ x, x = (({ Position.clear with turn := if t = true then .white else .black } : Position).setPiece
      (mkPiece .black PT.King) ⟨sq0.toNat, k0⟩).setPiece (mkPiece .white PT.King) ⟨sq1.toNat, k1⟩ := ⟨_, rfl⟩
  rw [← hp2] at h
  replace hraw2 : Raw p2 (Pos.set (Pos.set (fun _ => none) ⟨sq0.toNat, k0⟩ (some (.black, .king))) ⟨sq1.toNat, k1⟩ (some (.white, .king))) := by
    rw [hp2]; exact hraw2
  rcases h4 : Position.decBoard T (List.finRange 81) p2 b3 with ⟨p4, b4⟩ | _ | _ <;> rw [h4] at h
  case error => cases h
  case ub => cases h
  simp only [Out.bind_ok] at h
  obtain ⟨b', hb'⟩ := decBoard_raw T (List.finRange 81) (List.nodup_finRange 81) hraw2 (by
    intro s _
    unfold Pos.set
    by_cases e1 : s = ⟨sq1.toNat, k1⟩
    · right; simp [e1]
    · by_cases e0 : s = ⟨sq0.toNat, k0⟩
      · right; subst e0; simp [e1]
      · left; simp [e1, e0]) h4
  obtain ⟨a1, a2, a3⟩ := decHands_board T _ h
  exact ⟨b', hb'.congr a1 a2 a3⟩

theorem decode_raw (Z : Zobrist) (T : CodeTables) (buf : Fin 32 → BitVec 8) (hk : KingsApart buf) (p' : Position)
    (h : decodePos Z T buf = .ok p') : Raw p' (absPos p').board ∧ KeysOK Z p' := by
  unfold decodePos at h
  rcases h0 : decodeBody T buf with q | _ | _ <;> rw [h0] at h
  case error => cases h
  case ub => cases h
  simp only [Out.bind_ok, Out.ok.injEq] at h
  obtain ⟨b', hb'⟩ := decodeBody_raw T buf hk q h0
  have hr5 : Raw p' b' := by rw [← h]; exact hb'.congr rfl rfl rfl
  exact ⟨by rw [hr5.abs]; exact hr5, by rw [← h]; exact finish_keys Z _⟩

end Verif