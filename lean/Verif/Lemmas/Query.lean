import Verif.Model.Query
import Verif.Lemmas.Regular
import Verif.Props.Sfen

/-!
# Lemmas for reading a board, checking it and setting it up by parts
-/

namespace Verif
open Spec Bitboard Position

/-! ### Reading the pieces -/

theorem fold_upd (l : List Square) (pc : Nat) (v : Square → Nat) (s : Square) :
    (l.foldl (fun v s => upd v s pc) v) s = if s ∈ l then pc else v s := by
  induction l generalizing v with
  | nil => simp
  | cons a l ih =>
    rw [List.foldl_cons, ih]
    by_cases h : s ∈ l
    · simp [h]
    · by_cases ha : s = a
      · subst ha; simp [upd]
      · simp [h, ha, upd]

theorem bbToVector_eq {p : Position} (hw : ∀ n : Nat, (p.byType n).WF) (pt : Nat) (c : Color) (pc : Nat) (v : Square → Nat) (s : Square) :
    p.bbToVector pt c pc v s = if (p.bbOf pt c).isSet s = true then pc else v s := by
  unfold bbToVector
  rw [fold_upd]
  have : (p.bbOf pt c).WF := (hw pt).and_left
  simp only [this.mem_toList]

theorem fold_read {p : Position} (hw : ∀ n : Nat, (p.byType n).WF) (s : Square) (x : Nat) (L : List (Nat × Color × Nat)) :
    (∀ y ∈ L, (p.bbOf y.1 y.2.1).isSet s = true → y.2.2 = x) → ∀ v : Square → Nat,
    (L.foldl (fun v x => p.bbToVector x.1 x.2.1 x.2.2 v) v) s = if ∃ y ∈ L, (p.bbOf y.1 y.2.1).isSet s = true then x else v s := by
  induction L with
  | nil => intro _ v; simp
  | cons a L ih =>
    intro h v
    rw [List.foldl_cons, ih fun y hy => h y (List.mem_cons_of_mem _ hy)]
    by_cases h1 : ∃ y ∈ L, (p.bbOf y.1 y.2.1).isSet s = true
    · obtain ⟨y, hy, e⟩ := h1
      rw [if_pos ⟨y, hy, e⟩, if_pos ⟨y, List.mem_cons_of_mem _ hy, e⟩]
    · rw [if_neg h1, bbToVector_eq hw]
      by_cases h2 : (p.bbOf a.1 a.2.1).isSet s = true
      · rw [if_pos h2, if_pos ⟨a, List.mem_cons_self .., h2⟩]
        exact h a (List.mem_cons_self ..) h2
      · rw [if_neg h2, if_neg]
        rintro ⟨y, hy, e⟩
        rcases List.mem_cons.mp hy with rfl | hy
        · exact h2 e
        · exact h1 ⟨y, hy, e⟩

theorem pieceCalls_spec : ∀ y ∈ pieceCalls, ∃ k : Kind, y = (k.code, y.2.1, mkPiece y.2.1 k.code) := by
  intro y hy
  simp only [pieceCalls, List.mem_cons, List.not_mem_nil, or_false] at hy
  rcases hy with h | h | h | h | h | h | h | h | h | h | h | h | h | h | h | h | h | h | h | h | h | h | h | h | h | h | h | h
  all_goals subst h
  exacts [⟨.pawn, rfl⟩, ⟨.lance, rfl⟩, ⟨.knight, rfl⟩, ⟨.silver, rfl⟩, ⟨.bishop, rfl⟩, ⟨.rook, rfl⟩, ⟨.gold, rfl⟩, ⟨.king, rfl⟩,
    ⟨.proPawn, rfl⟩, ⟨.proLance, rfl⟩, ⟨.proKnight, rfl⟩, ⟨.proSilver, rfl⟩, ⟨.horse, rfl⟩, ⟨.dragon, rfl⟩,
    ⟨.pawn, rfl⟩, ⟨.lance, rfl⟩, ⟨.knight, rfl⟩, ⟨.silver, rfl⟩, ⟨.bishop, rfl⟩, ⟨.rook, rfl⟩, ⟨.gold, rfl⟩, ⟨.king, rfl⟩,
    ⟨.proPawn, rfl⟩, ⟨.proLance, rfl⟩, ⟨.proKnight, rfl⟩, ⟨.proSilver, rfl⟩, ⟨.horse, rfl⟩, ⟨.dragon, rfl⟩]

theorem mem_pieceCalls (c : Color) (k : Kind) : (k.code, c, mkPiece c k.code) ∈ pieceCalls := by
  cases c <;> cases k <;> decide

theorem pieces_raw {p : Position} {b : Square → Option (Color × Kind)} (h : Raw p b) (s : Square) : p.pieces s = pieceCode (b s) := by
  have hset : ∀ (c : Color) (k : Kind), (p.bbOf k.code c).isSet s = true ↔ b s = some (c, k) := by
    intro c k
    unfold Position.bbOf
    rw [isSet_and, Bool.and_eq_true, h.type, h.color]
    constructor
    · rintro ⟨⟨c', e⟩, k', e'⟩
      rw [e] at e'; cases e'; exact e
    · intro e; exact ⟨⟨c, e⟩, k, e⟩
  unfold pieces
  rw [fold_read h.wfType s (pieceCode (b s)) pieceCalls]
  · split
    · rfl
    · next hn =>
      rcases hb : b s with _ | ⟨c, k⟩
      · rfl
      · exact absurd ⟨_, mem_pieceCalls c k, (hset c k).mpr hb⟩ hn
  · intro y hy e
    obtain ⟨k, hk⟩ := pieceCalls_spec y hy
    rw [hk] at e ⊢
    rw [(hset _ k).mp e]; rfl

/-! ### Positions made by a set-up function -/

/-- What a set-up function leaves at its initial value. -/
structure NewPos (p : Position) : Prop where
  over : ∀ n : Nat, 15 ≤ n → p.byType n = Bitboard.zero
  prev : p.prev = []
  plies : p.st.pliesFromNull = 0
  cont : p.st.continuousCheck = fun _ => 0

theorem NewPos.clear : NewPos Position.clear := ⟨fun _ _ => rfl, rfl, rfl, rfl⟩

theorem NewPos.setPiece {p : Position} (h : NewPos p) {pc : Nat} (hp : pieceType pc < 15) (s : Square) : NewPos (p.setPiece pc s) := by
  refine ⟨fun n hn => ?_, h.prev, h.plies, h.cont⟩
  have e : (p.setPiece pc s).byType n = p.byType n := by
    simp only [Position.setPiece, upd]
    rw [if_neg (by unfold PT.Occupied; omega), if_neg (by omega)]
  rw [e]; exact h.over n hn

theorem NewPos.finish {p : Position} (h : NewPos p) (Z : Zobrist) : NewPos (finish Z p) := ⟨h.over, h.prev, h.plies, h.cont⟩

theorem NewPos.congr {p q : Position} (h : NewPos p) (h1 : q.byType = p.byType) (h2 : q.prev = p.prev) (h3 : q.st = p.st) : NewPos q :=
  ⟨by rw [h1]; exact h.over, by rw [h2]; exact h.prev, by rw [h3]; exact h.plies, by rw [h3]; exact h.cont⟩

theorem fresh_readBoard : ∀ (cs : List Char) (p : Position) (sq : Int) (flag : Nat) (x : Position × Option (List Char)), NewPos p →
    readBoard cs p sq flag = .ok x → NewPos x.1
  | [], p, sq, flag, x, h, e => by cases e; exact h
  | ch :: cs, p, sq, flag, x, h, e => by
    rw [readBoard] at e
    split at e
    · cases e; exact h
    split at e
    · exact fresh_readBoard cs _ _ _ x h e
    split at e
    · exact fresh_readBoard cs _ _ _ x h e
    split at e
    · exact fresh_readBoard cs _ _ _ x h e
    split at e
    · cases e
    split at e
    · split at e
      · cases e
      · next hn => exact fresh_readBoard cs _ _ _ x (h.setPiece (by omega) _) e
    · cases e

theorem fresh_readTurn : ∀ (cs : List Char) (p : Position) (x : Position × Option (List Char)), NewPos p →
    readTurn cs p = .ok x → NewPos x.1
  | [], p, x, h, e => by cases e; exact h
  | ch :: cs, p, x, h, e => by
    rw [readTurn] at e
    split at e
    · cases e; exact h
    split at e
    · refine fresh_readTurn cs _ x ?_ e; exact h.congr rfl rfl rfl
    split at e
    · refine fresh_readTurn cs _ x ?_ e; exact h.congr rfl rfl rfl
    · cases e

theorem fresh_readHands : ∀ (cs : List Char) (p : Position) (d : Nat) (x : Position × Option (List Char)), NewPos p →
    readHands cs p d = .ok x → NewPos x.1
  | [], p, d, x, h, e => by cases e; exact h
  | ch :: cs, p, d, x, h, e => by
    rw [readHands] at e
    split at e
    · cases e; exact h
    split at e
    · refine fresh_readHands cs _ _ x ?_ e; exact h.congr rfl rfl rfl
    split at e
    · split at e
      · exact fresh_readHands cs _ _ x h e
      · cases e
    split at e
    · cases e
    split at e
    · cases e
    · refine fresh_readHands cs _ _ x ?_ e; exact h.congr rfl rfl rfl

theorem fresh_setSfen {Z : Zobrist} {cs : List Char} {p : Position} (e : setSfen Z cs = .ok p) : NewPos p := by
  unfold setSfen parseSfen at e
  rcases e1 : readBoard cs Position.clear 72 0 with x | _ | _
  on_goal 2 => rw [e1] at e; cases e
  on_goal 2 => rw [e1] at e; cases e
  rw [e1] at e
  have h1 := fresh_readBoard _ _ _ _ _ NewPos.clear e1
  simp only [Out.bind_ok] at e
  rcases e2 : onStream readTurn x with y | _ | _
  on_goal 2 => rw [e2] at e; cases e
  on_goal 2 => rw [e2] at e; cases e
  rw [e2] at e
  have h2 : NewPos y.1 := by
    unfold onStream at e2
    split at e2
    · cases e2; exact h1
    · exact fresh_readTurn _ _ _ h1 e2
  simp only [Out.bind_ok] at e
  rcases e3 : onStream (fun cs p => readHands cs p 0) y with z | _ | _
  on_goal 2 => rw [e3] at e; cases e
  on_goal 2 => rw [e3] at e; cases e
  rw [e3] at e
  have h3 : NewPos z.1 := by
    unfold onStream at e3
    split at e3
    · cases e3; exact h2
    · exact fresh_readHands _ _ _ _ h2 e3
  simp only [Out.bind_ok] at e
  cases e
  refine NewPos.finish ?_ Z
  exact h3.congr rfl rfl rfl

/-- Set-up positions showing the same board are the same. -/
theorem finish_eq (Z : Zobrist) {q r : Position} {b : Square → Option (Color × Kind)} (hq : Raw q b) (hr : Raw r b)
    (fq : NewPos q) (fr : NewPos r) (hh : q.hand = r.hand) (ht : q.turn = r.turn) (hg : q.gamePly = r.gamePly) :
    finish Z q = finish Z r := by
  have h1 : q.piece = r.piece := by funext s; rw [hq.code, hr.code]
  have h2 : q.byColor = r.byColor := by
    funext c
    exact (hq.wfColor c).ext (hr.wfColor c) fun s => by rw [Bool.eq_iff_iff, hq.color, hr.color]
  have h3 : q.byType = r.byType := by
    funext (n : Nat)
    by_cases h : 15 ≤ n
    · rw [fq.over n h, fr.over n h]
    · refine (hq.wfType n).ext (hr.wfType n) fun s => ?_
      have hk : n = 0 ∨ ∃ k : Kind, n = k.code := by
        interval_cases n
        exacts [.inl rfl, .inr ⟨.pawn, rfl⟩, .inr ⟨.lance, rfl⟩, .inr ⟨.knight, rfl⟩, .inr ⟨.silver, rfl⟩, .inr ⟨.bishop, rfl⟩,
          .inr ⟨.rook, rfl⟩, .inr ⟨.gold, rfl⟩, .inr ⟨.king, rfl⟩, .inr ⟨.proPawn, rfl⟩, .inr ⟨.proLance, rfl⟩,
          .inr ⟨.proKnight, rfl⟩, .inr ⟨.proSilver, rfl⟩, .inr ⟨.horse, rfl⟩, .inr ⟨.dragon, rfl⟩]
      rcases hk with rfl | ⟨k, rfl⟩
      · exact (hq.occ s).trans (hr.occ s).symm
      · rw [Bool.eq_iff_iff, hq.type, hr.type]
  have h4 : q.prev = r.prev := fq.prev.trans fr.prev.symm
  have h5 : q.st.pliesFromNull = r.st.pliesFromNull := fq.plies.trans fr.plies.symm
  have h6 : q.st.continuousCheck = r.st.continuousCheck := fq.cont.trans fr.cont.symm
  clear hq hr fq fr
  rcases q with ⟨a1, a2, a3, a4, a5, a6, a7, ⟨b1, b2, b3, b4, b5, b6⟩, a9, a10⟩
  rcases r with ⟨c1, c2, c3, c4, c5, c6, c7, ⟨d1, d2, d3, d4, d5, d6⟩, c9, c10⟩
  dsimp only at *
  subst h1 h2 h3 h4 h5 h6 hh ht hg
  rfl

/-- What `set_pieces` builds. -/
theorem setPieces_raw (Z : Zobrist) (p : Position) (q : Pos) (hh : ∀ c h, q.hand c h ≤ h.total)
    (hand : Color → Nat → Nat) (hhand : ∀ c h, hand c h.code = q.hand c h) :
    ∃ r, setPieces Z p (fun s => pieceCode (q.board s)) hand = finish Z r ∧ Raw r q.board ∧ NewPos r ∧ r.turn = p.turn ∧
      r.gamePly = p.gamePly ∧ ∀ c, (r.hand c).WF ∧ ∀ i < 7, (r.hand c).numOf i = hand c i := by
  have hr := Raw.place (List.finRange 81) (List.nodup_finRange 81) q.board Position.clear (fun _ => none) Raw.clear (fun _ _ => rfl)
  have hb : (fun s => if s ∈ List.finRange 81 then q.board s else none) = q.board := by
    funext s; simp [List.mem_finRange]
  rw [hb] at hr
  have hfresh : ∀ (l : List Square) (q' : Position), NewPos q' →
      NewPos (l.foldl (fun q' s => if pieceCode (q.board s) ≠ 0 then q'.setPiece (pieceCode (q.board s)) s else q') q') := by
    intro l
    induction l with
    | nil => intro _ h; exact h
    | cons a l ih =>
      intro q' h
      rw [List.foldl_cons]
      refine ih _ ?_
      split
      · refine h.setPiece ?_ _
        rcases q.board a with _ | ⟨c, k⟩
        · decide
        · show pieceType (mkPiece c k.code) < 15
          rw [pieceType_mkPiece]; have := code_le k; omega
      · exact h
  have hf0 := hfresh (List.finRange 81) _ NewPos.clear
  obtain ⟨q0, hq0⟩ : ∃ x, x = (List.finRange 81).foldl (fun q' s => if pieceCode (q.board s) ≠ 0 then q'.setPiece (pieceCode (q.board s)) s else q') Position.clear := ⟨_, rfl⟩
  rw [← hq0] at hr hf0
  have hq0h : q0.hand = fun _ => Hand.empty := by rw [hq0, setPieces_fold_hand]; rfl
  have hle : ∀ c, ∀ i < 7, hand c i ≤ setSize i := by
    intro c i hi
    obtain ⟨h, rfl⟩ := hcode_surj i hi
    rw [hhand, ← total_eq]; exact hh c h
  have hfill : ∀ c, HandIs (fillHand (hand c) (List.range 7)) (fun i => if i ∈ List.range 7 then hand c i else 0) :=
    fun c => C09_fill (hand c) (hle c) (List.range 7) List.nodup_range (fun i hi => List.mem_range.mp hi)
  refine ⟨{ q0 with hand := fun c => fillHand (hand c) (List.range 7), turn := p.turn, gamePly := p.gamePly }, ?_,
    hr.congr rfl rfl rfl, hf0.congr rfl rfl rfl, rfl, rfl, fun c => ⟨(hfill c).wf, fun i hi => ?_⟩⟩
  · unfold setPieces
    simp only [← hq0, List.foldl_cons, List.foldl_nil, setHand_fold, hq0h]
    congr 2
    funext c
    cases c <;> rfl
  · show (fillHand (hand c) (List.range 7)).numOf i = _
    rw [(hfill c).counts _ hi, if_pos (List.mem_range.mpr hi)]

end Verif
