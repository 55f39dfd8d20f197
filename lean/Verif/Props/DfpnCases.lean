import Verif.Props.Dfpn
import Verif.Props.Mate
import Verif.Lemmas.DfpnClean

/-!
# C59 - C62 on boards: the hypotheses can be met, and what does not hold

The hash keys of these boards are those of `mixKeys`, a table of keys under which the positions that come up have different keys.
-/

set_option maxRecDepth 100000

namespace Verif
open Spec Bitboard Position Dfpn HandDom

def mixKey (n : Nat) : BitVec 64 := BitVec.ofNat 64 (n ^ 7 * 0x9E3779B97F4A7C15 % 2 ^ 63) <<< 1

def mixKeys : Zobrist where
  board pt s c := mixKey ((pt * 81 + s.val) * 2 + c.idx + 3)
  hand hp c := mixKey (100000 + hp * 2 + c.idx)
  board_even _ _ _ := by unfold mixKey; simp
  hand_even _ _ := by unfold mixKey; simp

/-! ### `search`, `get_move` and `get_pv` -/

/-- The board of `C56_fails` (Verif/Props/Mate.lean), with these keys. -/
def missMix : Position := setPieces mixKeys clear (fun s => pieceCode (missBoard s)) missHand

theorem missMix_ok : Inv mixKeys missMix ∧ absPos missMix = ⟨missBoard, fun c h => missHand c h.code, .black⟩ ∧ CheckOK missMix ∧
    (absPos missMix).Regular :=
  setup_regular missBoard missHand 72 8 (by decide +kernel) (by decide +kernel) (fun c h => by cases c <;> cases h <;> decide)
    (by decide +kernel) (fun h => by cases h <;> decide +kernel) (by decide +kernel)

theorem missMix_sound : Sound mixKeys missMix := ⟨missMix_ok.1, missMix_ok.2.2.1, missMix_ok.2.2.2, by decide +kernel⟩

/-- A depth of one move. -/
def shallow : Config := ⟨1, 2147483647, 1000, fun _ => false⟩

theorem missMix_depth : shallow.maxDepth missMix = 1 ∧ missMix.gamePly = 0 := by decide +kernel

theorem missMix_clean : Clean mixKeys (shallow.maxDepth missMix) missMix.turn missMix := by
  rw [missMix_depth.1]
  exact clean_of_list missMix_sound (N := 3) (by decide +kernel) (by decide +kernel)

/-- What the search, the move and the line are. -/
theorem missMix_search : (pySearch mixKeys shallow 5 missMix).map (fun r => (r.1, getMove mixKeys missMix r.2.tt,
    (getPv mixKeys 5 missMix r.2.tt).map (·.pv))) = some (true, some 415413#32, some [415413#32]) := by decide +kernel

/-- **C59** - **C62** on a board: the search answers true, so Black has a forced mate, which `mate_move_in_1ply` does not find
(`C56_fails`); `get_move` and `get_pv` name its first move. -/
theorem missMix_found : (∃ n, MatesIn keenReply n (absPos missMix)) ∧
    ∃ s, pySearch mixKeys shallow 5 missMix = some (true, s) ∧ s.pos = missMix ∧
      (∃ mv, 415413#32 = encode missMix mv ∧ (absPos missMix).Legal mv ∧ ∃ n, LosesIn keenReply n ((absPos missMix).play mv)) ∧
      ∃ l, Spells mixKeys missMix [415413#32] l ∧ Variation (fun q => ∃ n, LosesIn keenReply n q) 1 true (absPos missMix) l := by
  obtain ⟨h1, -, h2, h3⟩ := missMix_ok
  have h4 := missMix_sound.plies
  obtain ⟨hd, hg⟩ := missMix_depth
  obtain ⟨⟨b, s⟩, e, h⟩ := Option.map_eq_some_iff.mp missMix_search
  simp only [Prod.mk.injEq] at h
  obtain ⟨rfl, hm, hpv⟩ := h
  obtain ⟨s', e', hpv⟩ := Option.map_eq_some_iff.mp hpv
  have hply : 0 ≤ missMix.gamePly ∧ missMix.gamePly ≤ 65533 := by rw [hg]; decide
  refine ⟨C59_search_partial mixKeys shallow missMix h1 h2 h3 h4 hply (by rw [hd]; decide) missMix_clean 5 s e, s, e,
    C61_search mixKeys shallow missMix h1 h2 h3 h4 5 true s e, ?_, ?_⟩
  · obtain ⟨mv, e1, e2, -, e3⟩ := C60_get_move_partial mixKeys shallow missMix h1 h2 h3 h4 hply (by rw [hd]; decide) (by rw [hd, hg]; decide)
      missMix_clean 5 true s e missMix .root rfl (by rw [hd, hg]; decide) _ hm (by decide)
    exact ⟨mv, e1, e2, e3⟩
  · have := C62_get_pv_wins_partial mixKeys shallow missMix h1 h2 h3 h4 hply (by rw [hd]; decide) (by rw [hd, hg]; decide)
      missMix_clean 5 true s e 5 s' e'
    rw [hd, hg, hpv] at this
    exact this

/-! ### Declined promotions -/

/-- Black, in check by the silver on 2b, can take it by the bishop on 4d only. -/
def dodgeBoard (s : Square) : Option (Color × Kind) :=
  match s.val with
  | 2 => some (.black, .king) | 3 => some (.black, .pawn) | 12 => some (.black, .pawn) | 30 => some (.black, .bishop)
  | 10 => some (.white, .silver) | 9 => some (.white, .bishop) | 18 => some (.white, .knight) | 73 => some (.white, .rook)
  | 29 => some (.white, .pawn) | 44 => some (.white, .king)
  | _ => none

/-- White has a pawn in hand. -/
def dodgeHand (c : Color) (h : Nat) : Nat := match c, h with | .white, 0 => 1 | _, _ => 0

def dodgeModel : Position := setPieces mixKeys clear (fun s => pieceCode (dodgeBoard s)) dodgeHand

theorem dodgeModel_ok : Inv mixKeys dodgeModel ∧ absPos dodgeModel = ⟨dodgeBoard, fun c h => dodgeHand c h.code, .black⟩ ∧
    CheckOK dodgeModel ∧ (absPos dodgeModel).Regular :=
  setup_regular dodgeBoard dodgeHand 2 44 (by decide +kernel) (by decide +kernel) (fun c h => by cases c <;> cases h <;> decide)
    (by decide +kernel) (fun h => by cases h <;> decide +kernel) (by decide +kernel)

theorem dodgeModel_sound : Sound mixKeys dodgeModel := ⟨dodgeModel_ok.1, dodgeModel_ok.2.2.1, dodgeModel_ok.2.2.2, by decide +kernel⟩

theorem dodgeModel_check : (absPos dodgeModel).InCheck dodgeModel.turn := by
  rw [← inCheckB_iff dodgeModel_ok.1.views]; decide +kernel

/-- A depth of five plies. -/
def fivePlies : Config := ⟨5, 2147483647, 1000, fun _ => false⟩

theorem dodgeModel_depth : fivePlies.maxDepth dodgeModel = 5 ∧ dodgeModel.gamePly = 0 := by decide +kernel

theorem dodgeModel_clean : Clean mixKeys (fivePlies.maxDepth dodgeModel) dodgeModel.turn.opp dodgeModel := by
  rw [dodgeModel_depth.1]
  exact clean_of_list dodgeModel_sound (N := 5) (by decide +kernel) (by decide +kernel)

theorem dodgeModel_search : ∃ p' T, searchAnd mixKeys fivePlies 3 dodgeModel = some (true, p', T) := by
  have h : (searchAnd mixKeys fivePlies 3 dodgeModel).map (·.1) = some true := by decide +kernel
  obtain ⟨⟨b, p', T⟩, e, rfl⟩ := Option.map_eq_some_iff.mp h
  exact ⟨p', T, e⟩

/-- **C59** for `search_andnode` on a board. -/
example : ∃ n, LosesIn keenReply n (absPos dodgeModel) := by
  obtain ⟨p', T, h⟩ := dodgeModel_search
  obtain ⟨h1, -, h2, h3⟩ := dodgeModel_ok
  obtain ⟨hd, hg⟩ := dodgeModel_depth
  exact C59_search_andnode_partial mixKeys fivePlies dodgeModel h1 h2 h3 dodgeModel_sound.plies dodgeModel_check (by rw [hg]; decide)
    (by rw [hd]; decide) dodgeModel_clean 3 p' T h

/-- The bishop takes without promotion. -/
def dodge1 : Mv := .move 30 10 false
def dodgeP1 : Position := (doMove mixKeys dodgeModel (encode dodgeModel dodge1)).getD dodgeModel

/-- **C59** fails for `search_andnode`: it does not look at replies that decline a promotion. In this regular position, with no
repetition and no keys that collide, it answers true. But Black can take the silver without promoting the bishop. Then the drop of
a pawn on 1b, which the promoted bishop could capture, would be mate and is forbidden, and White has no check at all. -/
theorem C59_fails : Inv mixKeys dodgeModel ∧ CheckOK dodgeModel ∧ (absPos dodgeModel).Regular ∧ (absPos dodgeModel).InCheck dodgeModel.turn ∧
    Clean mixKeys (fivePlies.maxDepth dodgeModel) dodgeModel.turn.opp dodgeModel ∧
    (∃ p' T, searchAnd mixKeys fivePlies 3 dodgeModel = some (true, p', T)) ∧
    (absPos dodgeModel).Legal dodge1 ∧
    (∀ m, ((absPos dodgeModel).play dodge1).Legal m → ¬ (((absPos dodgeModel).play dodge1).play m).InCheck .black) ∧
    ¬ ∃ n, LosesIn anyReply n (absPos dodgeModel) := by
  have hs := dodgeModel_sound
  have hleg : (absPos dodgeModel).Legal dodge1 := by
    obtain ⟨l, e, -, hm⟩ := genLegal_spec hs.inv.views hs.checks hs.regular
    have h : (match genLegal dodgeModel true with | none => false | some l => l.contains (encode dodgeModel dodge1)) = true := by
      decide +kernel
    rw [e] at h
    obtain ⟨mv, e1, e2⟩ := (hm _).mp (by simpa using h : encode dodgeModel dodge1 ∈ l)
    rw [encode_inj _ e1]; exact e2
  have hno : ∀ m, ((absPos dodgeModel).play dodge1).Legal m → ¬ (((absPos dodgeModel).play dodge1).play m).InCheck .black := by
    obtain ⟨p', e, -, h1, h2, -, ht, -⟩ := hs.step hleg
    have ep : dodgeP1 = p' := by unfold dodgeP1; rw [e]; rfl
    rw [← h2, ← ep]
    rw [← ep] at h1
    intro m hm hc
    obtain ⟨l, e, -, hl⟩ := genLegal_spec h1.inv.views h1.checks h1.regular
    have h0 : (match genLegal dodgeP1 true with | none => false | some l => l.all fun m => !dodgeP1.moveGivesCheck m) = true := by
      decide +kernel
    rw [e] at h0
    have := List.all_eq_true.mp h0 _ ((hl _).mpr ⟨m, rfl, hm⟩)
    have hb : dodgeP1.turn.opp = .black := by rw [ep, ht]; decide +kernel
    rw [(C22_moveGivesCheck dodgeP1 h1.inv.views h1.regular.waiting m hm.1).mpr (by rw [hb]; exact hc)] at this
    cases this
  have ht2 : ∀ m, (((absPos dodgeModel).play dodge1).play m).turn = .black := by
    intro m
    rw [play_turn, play_turn, opp_opp, dodgeModel_ok.2.1]
  refine ⟨hs.inv, hs.checks, hs.regular, dodgeModel_check, dodgeModel_clean, dodgeModel_search, hleg, hno, ?_⟩
  rintro ⟨n, h⟩
  cases n with
  | zero => exact h.2 _ hleg.1
  | succ n =>
    obtain ⟨m, hm, h⟩ := h.2 dodge1 hleg trivial
    refine hno m hm ?_
    have : ((((absPos dodgeModel).play dodge1).play m)).InCheck (((absPos dodgeModel).play dodge1).play m).turn := by
      cases n with
      | zero => exact h.1
      | succ n => exact h.1
    rwa [ht2] at this

end Verif
