import Verif.Lemmas.DfpnBase

/-!
# The df-pn search: the pieces in hand a mate needs
-/

namespace Verif
namespace Dfpn
open Spec Hand Position Bitboard HandDom

theorem mate1_found {Z : Zobrist} {p : Position} (hp : Sound Z p) (hn : ¬ (absPos p).InCheck p.turn) :
    ∃ r, p.mateMoveIn1Ply = some r ∧ (r ≠ 0#32 → Found2 p r) := by
  obtain ⟨k, hk⟩ := kings_of hp.inv.views hp.regular p.turn.opp
  have h : Ready p k := ⟨hp.inv.views, hp.regular, hn, hk⟩
  refine ⟨((p.mateGroups k).findSome? id).getD 0#32, by unfold mateMoveIn1Ply; rw [hk]; rfl, fun hne => ?_⟩
  cases hf : (p.mateGroups k).findSome? id with
  | none => rw [hf] at hne; exact absurd rfl hne
  | some m =>
    obtain ⟨a, ha, e⟩ := List.exists_of_findSome?_eq_some hf
    obtain rfl : a = some m := e
    exact groups_sound h ha

/-- The kinds of piece by their number, as the switch in `moveGivesNeighborCheck` groups them. -/
theorem near_attack {c : Color} {kt : Kind} {ksq t : Square} (m : Move) (hd : sqN m.dst = t) (hk : m.pieceTypeTo = kt.code)
    {p : Position} (hc : p.turn = c) (hking : p.kingSquare c.opp = some ksq) (h : neighborCheck p m = some true) :
    ∀ occ, Attacks c kt occ t ksq := by
  subst hc
  unfold neighborCheck at h
  simp only [hking, Option.map_some, Option.some.injEq, hk, hd] at h
  have fin : Attacks p.turn kt (fun _ => true) t ksq → ∀ occ, Attacks p.turn kt occ t ksq := fun h => (full_attack h).1
  cases kt with
  | pawn => exact fun occ => (back_pawn _ ksq t occ).mp h
  | lance => exact fin (full_lance _ ((back_pawn _ ksq t fun _ => true).mp h))
  | knight => exact fun occ => (back_knight _ ksq t occ).mp h
  | silver => exact fun occ => (back_silver _ ksq t occ).mp h
  | bishop => exact fin (attacks_mono (fun _ _ => isSet_allOne _) ((back_bishop p.turn ksq t allOne).mp h))
  | rook => exact fin (attacks_mono (fun _ _ => isSet_allOne _) ((back_rook p.turn ksq t allOne).mp h))
  | gold => exact fun occ => (back_gold _ .gold rfl ksq t occ).mp h
  | king => exact absurd h (by change ¬ (false = true); decide)
  | proPawn => exact fun occ => (back_gold _ .proPawn rfl ksq t occ).mp h
  | proLance => exact fun occ => (back_gold _ .proLance rfl ksq t occ).mp h
  | proKnight => exact fun occ => (back_gold _ .proKnight rfl ksq t occ).mp h
  | proSilver => exact fun occ => (back_gold _ .proSilver rfl ksq t occ).mp h
  | horse => exact fin (full_adj _ (.inl rfl) h)
  | dragon => exact fin (full_adj _ (.inr rfl) h)

theorem gold_fields (p : Position) {f t : Square} (hft : f ≠ t) : let m := genMove p PT.Gold f t
    sqN m.dst = t ∧ m.isDrop = false ∧ m.pieceTypeTo = 7 ∧ sqN m.src = f ∧ m.isPromotion = false := by
  let q : Position := { p with piece := fun s => if s = f then 7 else p.piece s }
  have e : genMove p PT.Gold f t = boardMove q.piece f t false := by
    show _ = makeCaptureMove (pieceType (if t = f then 7 else p.piece t)) (pieceType (if f = f then 7 else p.piece f)) _ _
    rw [if_neg hft.symm, if_pos rfl]; rfl
  have hk : pieceType (q.piece f) = Kind.gold.code := by show pieceType (if f = f then 7 else _) = _; rw [if_pos rfl]; rfl
  obtain ⟨h1, h5, -, -, h2, h3, h4, -, h6⟩ := board_fields q f t false .gold hk (by simp)
  intro m
  have em : m = boardMove q.piece f t false := e
  refine ⟨by rw [em]; exact h1, by rw [em]; exact h2, ?_, by rw [em]; exact h5, by rw [em]; exact h6⟩
  rw [em]
  unfold Move.pieceTypeTo
  rw [h2, if_neg Bool.false_ne_true, h3, h4]; rfl

/-- A word for a move, where a promoted minor piece may be called a gold. -/
def Word (p : Position) (m : Move) (mv : Mv) : Prop :=
  m = encode p mv ∨ ∃ f t kd, mv = .move f t false ∧ (absPos p).board f = some (p.turn, kd) ∧ goldLike kd = true ∧ m = genMove p PT.Gold f t

/-- A check that cannot be parried by a drop, in the words of the program. -/
theorem near_contact {p : Position} (h : Consistent p) (hr : (absPos p).Regular) {mv : Mv} (hm : (absPos p).Legal mv) {m : Move}
    (hw : Word p m mv) (hn : neighborCheck p m = some true) : Contact ((absPos p).play mv) := by
  obtain ⟨ksq, hk⟩ := kings_of h hr p.turn.opp
  have hK := h.kingAt hk
  have hpl := pseudo_playable hm.1.1 hr.waiting
  have fin : ∀ (src : Option Square) (t : Square) (kt : Kind), After (absPos p) ((absPos p).play mv) src t kt → t ≠ ksq →
      (∀ occ, Attacks p.turn kt occ t ksq) → Contact ((absPos p).play mv) := by
    intro src t kt ha htk hat
    refine ⟨t, ksq, kt, (ha.king hK htk ksq).mpr rfl, ?_, ?_⟩
    · rw [ha.turn, opp_opp]; exact ha.arrived
    · rw [ha.turn, opp_opp]; exact hat
  cases mv with
  | drop k t =>
    rcases hw with rfl | ⟨_, _, _, e, -⟩
    · obtain ⟨h1, -, h2, h3, -⟩ := drop_fields k t
      refine fin none t k.kind (.of_drop k hpl.2) ?_ (near_attack (encode p (.drop k t)) h1 ?_ rfl hk hn)
      · rintro rfl
        have := (hK t).mpr rfl
        rw [hpl.2] at this; cases this
      · show Move.pieceTypeTo (makeDropMove k.kind.code t.val) = _
        unfold Move.pieceTypeTo
        rw [h2, if_pos rfl, h3]
    · cases e
  | move s t pro =>
    obtain ⟨hst, ⟨k, hs, hpro⟩, ht, htk⟩ := hpl
    have hpt : pieceType (p.piece s) = k.code := by rw [h.code, hs, pieceType_pieceCode]; rfl
    obtain ⟨hd, -, -, -, hnd, hptf, hptt, -⟩ := board_fields p s t pro k hpt hpro
    have hne : t ≠ ksq := by
      rintro rfl
      exact htk ((hK t).mpr rfl)
    refine fin (some s) t _ (.of_move pro hs ht) hne ?_
    rcases hw with rfl | ⟨f, t', kd, e, hb, hg, rfl⟩
    · refine near_attack (encode p (.move s t pro)) hd ?_ rfl hk hn
      show Move.pieceTypeTo (boardMove p.piece s t pro) = _
      unfold Move.pieceTypeTo
      rw [hnd, if_neg Bool.false_ne_true, hptf, hptt]
    · cases e
      obtain rfl : kd = k := by have := hb.symm.trans hs; simp only [Option.some.injEq, Prod.mk.injEq] at this; exact this.2
      obtain ⟨g1, -, g2⟩ := gold_fields p hst
      have := near_attack (kt := .gold) _ g1 g2.1 rfl hk hn
      intro occ
      exact (back_gold _ _ hg ksq t occ).mp ((back_gold _ .gold rfl ksq t occ).mpr (this occ))

/-- The pieces in hand a mating move needs. -/
theorem mateHand_ok {Z : Zobrist} {p : Position} (hp : Sound Z p) {mv : Mv} (hm : (absPos p).Legal mv) (hmt : Lost ((absPos p).play mv))
    {m : Move} (hw : Word p m mv) : ∃ h, mateHand p m = some h ∧ h.WF ∧ Suffices p.turn (absPos p) (counts h) := by
  have hv := hp.inv.views
  have hemp : Hand.WF Hand.empty := by decide
  have hdrop : m.isDrop = true → m.handPieceDropped < 7 := by
    intro hd
    rcases hw with rfl | ⟨f, t, kd, rfl, -, -, rfl⟩
    · cases mv with
      | drop k t =>
        obtain ⟨-, -, -, h2, -⟩ := drop_fields k t
        show ptToHand (makeDropMove k.kind.code t.val).pieceTypeDropped < 7
        rw [h2, hand_of_drop]; exact hcode_lt k
      | move s t pro =>
        obtain ⟨-, ⟨k, hs, hpro⟩, -⟩ := pseudo_playable hm.1.1 hp.regular.waiting
        have hpt : pieceType (p.piece s) = k.code := by rw [hv.code, hs, pieceType_pieceCode]; rfl
        obtain ⟨-, -, -, -, hnd, -⟩ := board_fields p s t pro k hpt hpro
        have : (encode p (.move s t pro)).isDrop = false := hnd
        rw [this] at hd; cases hd
    · have hpl := pseudo_playable hm.1.1 hp.regular.waiting
      rw [(gold_fields p hpl.1).2.1] at hd; cases hd
  obtain ⟨h0, e0⟩ : ∃ h0, h0 = (if m.isDrop then Hand.empty.plusOne m.handPieceDropped else Hand.empty) := ⟨_, rfl⟩
  have w0 : h0.WF := by
    rw [e0]; split
    · next hd => exact (plus_wf hemp (hdrop hd) (by have := hdrop hd; revert this; generalize m.handPieceDropped = i; intro hi; interval_cases i <;> decide)).1
    · exact hemp
  have d0 : ∀ x t, mv = .drop x t → 1 ≤ h0.numOf x.code := by
    rintro x t rfl
    rcases hw with rfl | ⟨_, _, _, e, -⟩
    · obtain ⟨-, -, h2, h3, -⟩ := drop_fields x t
      have e1 : (encode p (.drop x t)).isDrop = true := h2
      have e2 : (encode p (.drop x t)).handPieceDropped = x.code := by
        show ptToHand (makeDropMove x.kind.code t.val).pieceTypeDropped = _
        rw [h3, hand_of_drop]
      rw [e0, if_pos e1, e2, (plus_wf hemp (hcode_lt x) (by cases x <;> decide)).2 _ (hcode_lt x), if_pos rfl]
      omega
    · cases e
  obtain ⟨ksq, hk⟩ := kings_of hv hp.regular p.turn.opp
  obtain ⟨near, hnear⟩ : ∃ near, neighborCheck p m = some near := by unfold neighborCheck; simp only [hk, Option.map_some]; exact ⟨_, rfl⟩
  have hold : ∀ x t, mv = .drop x t → 1 ≤ (p.hand p.turn).numOf x.code := by
    rintro x t rfl
    exact (hm.1.1).1
  obtain ⟨w1, c1⟩ := setPP_wf (p.hand p.turn.opp) w0 (hv.hand p.turn)
  refine ⟨if near then h0 else h0.setPP (p.hand p.turn) (p.hand p.turn.opp), ?_, ?_, ?_⟩
  · unfold mateHand; rw [hnear, e0]; rfl
  · split
    · exact w0
    · exact w1
  · cases near with
    | true =>
      rw [if_pos rfl]
      exact suffices_mate rfl hp.regular.waiting hm hmt d0 (.inl (near_contact hv hp.regular hm hw hnear))
    | false =>
      rw [if_neg Bool.false_ne_true]
      refine suffices_mate rfl hp.regular.waiting hm hmt (fun x t e => ?_) (.inr fun k hk0 => ?_)
      · unfold counts
        rw [c1 _ (hcode_lt x)]
        split
        · exact d0 x t e
        · exact hold x t e
      · have : (p.hand p.turn.opp).has k.code = false := by
          rw [Bool.eq_false_iff]; intro hh
          have := (Hand.has_iff (hv.hand _) (hcode_lt k)).mp hh
          have e : (p.hand p.turn.opp).numOf k.code = 0 := hk0
          omega
        unfold counts
        rw [c1 _ (hcode_lt k), this, if_neg Bool.false_ne_true]
        exact Nat.le_refl _

/-- A check next to the king, or by a knight. -/
theorem contactCheck_ok {Z : Zobrist} {p : Position} (hp : Sound Z p) : ∃ b, contactCheck p = some b ∧ (b = true → Contact (absPos p)) := by
  obtain ⟨ksq, hk⟩ := kings_of hp.inv.views hp.regular p.turn
  have hK := hp.inv.views.kingAt hk
  have main : ∀ s, p.st.checkersBB.isSet s = true → (∀ u, ¬ Between s u ksq) → Contact (absPos p) := by
    intro s hs hu
    obtain ⟨k, hkk, kd, hb, hat⟩ := (hp.checks.iff s).mp hs
    obtain rfl : k = ksq := (hK k).mp hkk
    exact ⟨s, k, kd, hkk, hb, fun occ => attacks_mono' (fun u hb => absurd hb (hu u)) hat⟩
  refine ⟨_, by unfold contactCheck; rw [hk]; rfl, fun h => ?_⟩
  rw [Bool.or_eq_true] at h
  rcases h with h | h
  · obtain ⟨s, hs⟩ := (WF.isAny_iff (hp.checks.wf.and_left)).mp h
    rw [isSet_and, Bool.and_eq_true] at hs
    exact main s hs.1 (full_attack ((back_king .black ksq s fun _ => true).mp hs.2)).2
  · obtain ⟨s, hs⟩ := (WF.isAny_iff (hp.checks.wf.and_left)).mp h
    rw [isSet_and, Bool.and_eq_true] at hs
    refine main s hs.1 (full_attack (c := p.turn.opp) ((back_knight p.turn.opp ksq s fun _ => true).mp ?_)).2
    rw [opp_opp]; exact hs.2

end Dfpn
end Verif
