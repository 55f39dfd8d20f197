import Verif.Spec.Human
import Verif.Props.IsLegalAny
import Verif.Props.PositionText
import Verif.Props.MatchCases
import Verif.Props.Mate

/-!
# A person playing on the web page: C102

Every theorem is about all orders in which the server's writes and the game's reads can happen.
-/

namespace Verif.Web
open Spec Spec.Human Position

/-! ### The pairs that the game can read -/

/-- The dictionary holds a request, or the number of a request and the move of the next; the number read before is that of a request
before these. -/
def Holds (all : List Input) (w : Waiting) (todo : List Access) : Prop :=
  ∃ past cur rem, (∀ k, w.seen = some k → ∃ d ∈ past ++ [cur], d.number = k) ∧ w.shared.number = cur.number ∧
    ((all = past ++ cur :: rem ∧ w.shared.move = cur.move ∧ todo = rem.flatMap Input.writes) ∨
      ∃ nxt, all = past ++ cur :: nxt :: rem ∧ w.shared.move = nxt.move ∧ todo = .putNumber nxt.number :: rem.flatMap Input.writes)

theorem holds_look {all : List Input} {w : Waiting} {todo : List Access} {s : Option Int} (h : Holds all w todo)
    (hs : s = none ∨ s = some w.shared.number) : Holds all { w with seen := s } todo := by
  obtain ⟨past, cur, rem, -, h2, h3⟩ := h
  refine ⟨past, cur, rem, fun k hk => ?_, h2, h3⟩
  rcases hs with rfl | rfl
  · cases hk
  · cases hk
    exact ⟨cur, by simp, h2.symm⟩

theorem holds_put {all : List Input} {w w' : Waiting} {a : Access} {todo : List Access} {p : Position} (h : Holds all w (a :: todo))
    (ha : access p w a = .waits w') : a ≠ .look → Holds all w' todo := by
  intro hl
  obtain ⟨past, cur, rem, h1, h2, h3⟩ := h
  rcases h3 with ⟨e, hm, ht⟩ | ⟨nxt, e, hm, ht⟩
  · cases rem with
    | nil => simp at ht
    | cons r rem =>
      simp only [List.flatMap_cons, Input.writes, List.cons_append, List.nil_append, List.cons.injEq] at ht
      obtain ⟨rfl, rfl⟩ := ht
      cases ha
      exact ⟨past, cur, rem, h1, h2, .inr ⟨r, e, rfl, rfl⟩⟩
  · simp only [List.cons.injEq] at ht
    obtain ⟨rfl, rfl⟩ := ht
    cases ha
    refine ⟨past ++ [cur], nxt, rem, fun k hk => ?_, rfl, .inl ⟨by rw [e]; simp, hm, rfl⟩⟩
    obtain ⟨d, hd, hk⟩ := h1 k hk
    exact ⟨d, List.mem_append_left _ hd, hk⟩

/-- What a round judges is a request for this move number. -/
theorem holds_judged {all : List Input} {w : Waiting} {todo : List Access} {n : Int} (h : Holds all w todo) (hs : Settled n all)
    (hk : w.seen = some n) : ∃ r ∈ all, r.number = n ∧ w.shared.move = r.move := by
  obtain ⟨past, cur, rem, h1, h2, h3⟩ := h
  obtain ⟨d, hd, hn⟩ := h1 n hk
  have hcur : ∀ l, all = past ++ cur :: l → cur.number = n := by
    intro l e
    rcases List.mem_append.mp hd with hd | hd
    · unfold Settled at hs
      rw [e, List.pairwise_append] at hs
      exact hs.2.2 d hd cur (by simp) hn
    · rw [List.mem_singleton] at hd
      rw [← hd]; exact hn
  rcases h3 with ⟨e, hm, -⟩ | ⟨nxt, e, hm, -⟩
  · exact ⟨cur, by rw [e]; simp, hcur _ e, hm⟩
  · refine ⟨nxt, by rw [e]; simp, ?_, hm⟩
    have hc := hcur _ e
    unfold Settled at hs
    rw [e, List.pairwise_append] at hs
    exact (List.pairwise_cons.mp hs.2.1).1 nxt (by simp) hc

theorem go_judged {p : Position} {all : List Input} (hs : Settled p.gamePly all) : ∀ (as : List Access) (w : Waiting) (rest : List Access),
    Holds all w (served as ++ rest) → (∃ w', humanGo p w as = .waits w') ∨
      ∃ r ∈ all, r.number = p.gamePly ∧ ∃ w', humanGo p w as = judge p w' p.gamePly r.move ∧ ∀ w'', humanGo p w as ≠ .waits w'' := by
  intro as
  induction as with
  | nil => intro w rest _; exact .inl ⟨w, rfl⟩
  | cons a as ih =>
    intro w rest h
    have hput : ∀ w', a ≠ .look → access p w a = .waits w' → (∃ w', humanGo p w (a :: as) = .waits w') ∨
        ∃ r ∈ all, r.number = p.gamePly ∧ ∃ w', humanGo p w (a :: as) = judge p w' p.gamePly r.move ∧
          ∀ w'', humanGo p w (a :: as) ≠ .waits w'' := by
      intro w' hl ha
      have hs' : served (a :: as) = a :: served as := by
        cases a with
        | look => exact absurd rfl hl
        | putMove u => rfl
        | putNumber n => rfl
      rw [hs', List.cons_append] at h
      have := ih w' rest (holds_put h ha hl)
      simp only [humanGo, ha]
      exact this
    cases a with
    | putMove u => exact hput _ (fun e => by cases e) rfl
    | putNumber n => exact hput _ (fun e => by cases e) rfl
    | look =>
      rw [show served (Access.look :: as) = served as from rfl] at h
      rcases hw : w.seen with _ | k
      · have ha : access p w .look = .waits { w with seen := some w.shared.number } := by simp only [access, hw]
        simp only [humanGo, ha]
        exact ih _ rest (holds_look h (.inr rfl))
      · have ha : access p w .look = judge p { w with seen := none } k w.shared.move := by simp only [access, hw]
        have hwait := ih { w with seen := none } rest (holds_look h (.inl rfl))
        by_cases hk : k = p.gamePly
        · subst hk
          obtain ⟨r, hr, hn, hm⟩ := holds_judged h hs hw
          rcases hj : judge p { w with seen := none } p.gamePly w.shared.move with w' | u | _ | _
          · have e : w' = { w with seen := none } := by
              revert hj
              unfold judge
              rw [if_neg (by simp)]
              rcases w.shared.move with _ | u <;> simp only
              · intro hj; cases hj
              · rcases p.usiToMove u with _ | m <;> simp only
                · intro hj; cases hj
                · rcases p.isLegal m with _ | _ | _ <;> simp only <;> intro hj <;> cases hj
                  rfl
            simp only [humanGo, ha, hj]
            rw [e]; exact hwait
          · refine .inr ⟨r, hr, hn, { w with seen := none }, ?_, ?_⟩
            · simp only [humanGo, ha, hj]; rw [← hm, hj]
            · intro w''; simp only [humanGo, ha, hj]; intro e; cases e
          · refine .inr ⟨r, hr, hn, { w with seen := none }, ?_, ?_⟩
            · simp only [humanGo, ha, hj]; rw [← hm, hj]
            · intro w''; simp only [humanGo, ha, hj]; intro e; cases e
          · refine .inr ⟨r, hr, hn, { w with seen := none }, ?_, ?_⟩
            · simp only [humanGo, ha, hj]; rw [← hm, hj]
            · intro w''; simp only [humanGo, ha, hj]; intro e; cases e
        · have hj : judge p { w with seen := none } k w.shared.move = .waits { w with seen := none } := by
            unfold judge; rw [if_pos hk]
          simp only [humanGo, ha, hj]
          exact hwait

theorem holds_first {rs : List Input} {as rest : List Access} (c : Input) (h : served as ++ rest = rs.flatMap Input.writes) :
    Holds (c :: rs) ⟨c, none⟩ (served as ++ rest) :=
  ⟨[], c, rs, fun k hk => (by cases hk), rfl, .inl ⟨rfl, rfl, h⟩⟩

theorem human_judge_takes {p : Position} {w : Waiting} {n : Int} {mv : Option (List Char)} {u : List Char} (h : judge p w n mv = .takes u) :
    mv = some u ∧ ∃ m, p.usiToMove u = some m ∧ p.isLegal m = some true := by
  unfold judge at h
  split at h
  · cases h
  · rcases mv with _ | v <;> simp only at h
    · cases h
    · rcases e : p.usiToMove v with _ | m <;> rw [e] at h <;> simp only at h
      · cases h
      · rcases e2 : p.isLegal m with _ | _ | _ <;> rw [e2] at h <;> simp only at h <;> cases h
        exact ⟨rfl, m, e, e2⟩

/-- A king cannot be dropped: the reader leaves its tables. -/
theorem human_king_drop (p : Position) {c : Char} (hc : c = 'K' ∨ c = 'k') (t : List Char) (m : Move)
    (h : p.usiToMove (c :: '*' :: t) = some m) : m = 0#32 := by
  have key : ∀ pc, charToPiece c = some pc → pieceType pc = 8 → m = 0#32 := by
    intro pc e1 e2
    have h0 : charAt (c :: '*' :: t) 0 = some c := rfl
    have h1 : charAt (c :: '*' :: t) 1 = some '*' := by simp [charAt]
    unfold usiToMove at h
    rw [h0, Option.bind_some, e1] at h
    simp only at h
    unfold usiDrop at h
    rw [h1, Option.bind_some, if_neg (by simp)] at h
    obtain ⟨s, -, h⟩ := Option.bind_eq_some_iff.mp h
    cases s with
    | none => cases h; rfl
    | some s =>
      simp only [e2] at h
      have : ∀ s : Square, p.checked (makeDropMove 8 s.val) = none := by
        intro s
        have hd : ∀ s : Square, (makeDropMove 8 s.val).isDrop = true ∧ ¬ ptToHand (makeDropMove 8 s.val).pieceTypeDropped < 7 := by
          decide +kernel
        have hdst : ∀ s : Square, (makeDropMove 8 s.val).dst < 81 := by decide +kernel
        unfold checked isLegal moveIsPseudoLegal
        simp [(hd s).1, (hd s).2, hdst s]
      rw [this] at h; cases h
  rcases hc with rfl | rfl
  · exact key 8 rfl rfl
  · exact key 24 rfl rfl

/-- Whatever text is accepted, it stands for a move that obeys all rules but those about promotion. -/
theorem human_loose {p : Position} (hp : Consistent p) (hc : CheckOK p) (hr : (absPos p).Regular) {s : List Char} {m : Move}
    (h : p.usiToMove s = some m) (hl : p.isLegal m = some true) : ∃ mv, m = encode p mv ∧ (absPos p).Loose mv := by
  have hz : m ≠ 0#32 := by
    rintro rfl
    rw [Match.isLegal_zero] at hl; cases hl
  by_cases h0 : s.length = 0
  · rw [List.length_eq_zero_iff] at h0
    subst h0
    rw [(C07_fails_reads p).1] at h; cases h
  by_cases hK : ∃ t, s = 'K' :: '*' :: t
  · obtain ⟨t, rfl⟩ := hK
    exact absurd (human_king_drop p (.inl rfl) t m h) hz
  by_cases hk : ∃ t, s = 'k' :: '*' :: t
  · obtain ⟨t, rfl⟩ := hk
    exact absurd (human_king_drop p (.inr rfl) t m h) hz
  by_cases h2 : s.length = 2
  · exfalso
    match s, h2 with
    | [a, b], _ =>
      have e3 : charAt [a, b] 3 = none := rfl
      have hsq : squareAt 97 [a, b] 2 = none := by
        unfold squareAt
        rw [e3]
        cases charAt [a, b] 2 <;> rfl
      unfold usiToMove at h
      obtain ⟨c, -, h⟩ := Option.bind_eq_some_iff.mp h
      rcases hc : charToPiece c with _ | pc <;> rw [hc] at h <;> simp only at h
      · unfold usiBoard at h
        obtain ⟨f, -, h⟩ := Option.bind_eq_some_iff.mp h
        cases f with
        | none => cases h; exact hz rfl
        | some f => simp only [hsq, Option.bind_none] at h; cases h
      · unfold usiDrop at h
        obtain ⟨c1, -, h⟩ := Option.bind_eq_some_iff.mp h
        split at h
        · cases h; exact hz rfl
        · simp only [hsq, Option.bind_none] at h; cases h
  · rcases (C07_usi_exact p hp hc hr).1 s h0 h2 (fun t e => hK ⟨t, e⟩) (fun t e => hk ⟨t, e⟩) with e | ⟨mv, e, hv⟩
    · rw [h] at e; cases e; exact absurd rfl hz
    · rw [h] at e; cases e; exact ⟨mv, rfl, hv⟩

/-! ### C102 -/

/-- **C102**, whatever the requests and whenever they are served: if `go` returns a text, this text was sent with the number of the
move to be made, and it stands for a move that obeys all rules of shogi but those about promotion. If no request for this number has been
sent, `go` waits.

Missing: with a request for another number after one for this number the game may take the text of the other (`C102_fails_race`); the
move may break the rules about promotion (`C07_fails`). -/
theorem C102_taken_partial (p : Position) (hp : Consistent p) (hc : CheckOK p) (hr : (absPos p).Regular) (c : Input) (rs : List Input)
    (as : List Access) (hs : Serves rs as) (hn : Settled p.gamePly (c :: rs)) :
    (∀ u, humanGo p ⟨c, none⟩ as = .takes u → (⟨p.gamePly, some u⟩ : Input) ∈ c :: rs ∧
      ∃ mv, p.usiToMove u = some (encode p mv) ∧ (absPos p).Loose mv) ∧
    ((∀ r ∈ c :: rs, r.number ≠ p.gamePly) → ∃ w, humanGo p ⟨c, none⟩ as = .waits w) := by
  obtain ⟨rest, he⟩ := hs
  have key := go_judged hn as ⟨c, none⟩ rest (holds_first c he)
  refine ⟨fun u hu => ?_, fun hno => ?_⟩
  · rcases key with ⟨w', e⟩ | ⟨r, hr', hrn, w', e, -⟩
    · rw [hu] at e; cases e
    · rw [hu] at e
      obtain ⟨hm, m, h1, h2⟩ := human_judge_takes e.symm
      obtain ⟨mv, rfl, hv⟩ := human_loose hp hc hr h1 h2
      refine ⟨?_, mv, h1, hv⟩
      rw [← hrn, ← hm]; exact hr'
  · rcases key with h | ⟨r, hr', hrn, -⟩
    · exact h
    · exact absurd hrn (hno r hr')

theorem human_judge_text {p : Position} {w : Waiting} (hp : Consistent p) (hc : CheckOK p) (hr : (absPos p).Regular) (mv : Mv) :
    judge p w p.gamePly (some (usiText mv)) = .takes (usiText mv) ∨ judge p w p.gamePly (some (usiText mv)) = .waits w := by
  obtain ⟨b, h, -⟩ := C27_loose p hp hc hr mv
  cases b with
  | true => left; simp [judge, usi_text h, h]
  | false => right; simp [judge, usi_text_not h, Match.isLegal_zero]

/-- **C102**: while all that is sent for the number are texts of moves, legal or not, `go` neither raises nor reads outside of a text. -/
theorem C102_safe (p : Position) (hp : Consistent p) (hc : CheckOK p) (hr : (absPos p).Regular) (c : Input) (rs : List Input)
    (as : List Access) (hs : Serves rs as) (hn : Settled p.gamePly (c :: rs))
    (ht : ∀ r ∈ c :: rs, r.number = p.gamePly → ∃ mv, r.move = some (usiText mv)) :
    (∃ w, humanGo p ⟨c, none⟩ as = .waits w) ∨ ∃ u, humanGo p ⟨c, none⟩ as = .takes u := by
  obtain ⟨rest, he⟩ := hs
  rcases go_judged hn as ⟨c, none⟩ rest (holds_first c he) with h | ⟨r, hr', hrn, w', e, -⟩
  · exact .inl h
  · obtain ⟨mv, hm⟩ := ht r hr' hrn
    rw [hm] at e
    rcases human_judge_text (w := w') hp hc hr mv with h | h
    · exact .inr ⟨_, e.trans h⟩
    · exact .inl ⟨_, e.trans h⟩

/-- What is in the dictionary after some accesses. -/
theorem go_shared {p : Position} : ∀ (as : List Access) (w w' : Waiting) (c : Input) (rs : List Input),
    served as = (rs ++ [c]).flatMap Input.writes → humanGo p w as = .waits w' → w'.shared = c := by
  intro as
  have gen : ∀ (as : List Access) (w w' : Waiting), humanGo p w as = .waits w' →
      w'.shared = (served as).foldl (fun (s : Input) a => match a with
        | .putMove u => { s with move := u }
        | .putNumber n => { s with number := n }
        | .look => s) w.shared := by
    intro as
    induction as with
    | nil => intro w w' h; cases h; rfl
    | cons a as ih =>
      intro w w' h
      cases a with
      | putMove u => exact ih _ w' h
      | putNumber n => exact ih _ w' h
      | look =>
        rcases hw : w.seen with _ | k
        · simp only [humanGo, access, hw] at h
          exact ih { w with seen := some w.shared.number } w' h
        · simp only [humanGo, access, hw] at h
          rcases hj : judge p { w with seen := none } k w.shared.move with w1 | _ | _ | _ <;> rw [hj] at h <;> simp only at h
          · have e : w1 = { w with seen := none } := by
              revert hj
              unfold judge
              split
              · intro hj; cases hj; rfl
              · rcases w.shared.move with _ | u <;> simp only
                · intro hj; cases hj
                · rcases p.usiToMove u with _ | m <;> simp only
                  · intro hj; cases hj
                  · rcases p.isLegal m with _ | _ | _ <;> simp only <;> intro hj <;> cases hj
                    rfl
            have := ih w1 w' h
            rw [e] at this
            exact this
          all_goals cases h
  intro w w' c rs hs h
  rw [gen as w w' h, hs, List.flatMap_append, List.foldl_append]
  rfl

/-- **C102**, the move is played: when a legal move has been sent for the number and no other request follows, `go` returns its text at the
latest with the third look. -/
theorem C102_played (p : Position) (hp : Consistent p) (hc : CheckOK p) (hr : (absPos p).Regular) (mv : Mv) (hl : (absPos p).Legal mv)
    (w w' : Waiting) (rs : List Input) (as : List Access)
    (hs : served as = (rs ++ [(⟨p.gamePly, some (usiText mv)⟩ : Input)]).flatMap Input.writes) (hw : humanGo p w as = .waits w') (more : List Access) :
    humanGo p w (as ++ (.look :: .look :: .look :: more)) = .takes (usiText mv) := by
  have app : ∀ (as : List Access) (w w' : Waiting) (bs : List Access), humanGo p w as = .waits w' →
      humanGo p w (as ++ bs) = humanGo p w' bs := by
    intro as
    induction as with
    | nil => intro w w' bs h; cases h; rfl
    | cons a as ih =>
      intro w w' bs h
      rw [List.cons_append]
      rcases ha : access p w a with w1 | _ | _ | _ <;> simp only [humanGo, ha] at h ⊢
      · exact ih w1 w' bs h
      all_goals cases h
  have hsh := go_shared as w w' _ rs hs hw
  rw [app as w w' _ hw]
  obtain ⟨b, -, h1, -, -, h2⟩ := C27_is_legal_partial p hp hc hr mv (Legal.promotionOK hl)
  rw [h2.mpr hl] at h1
  have hj : ∀ w1, judge p w1 p.gamePly (some (usiText mv)) = .takes (usiText mv) := fun w1 => by simp [judge, usi_text h1, h1]
  obtain ⟨sh, seen⟩ := w'
  simp only at hsh
  subst hsh
  cases seen with
  | none => simp [humanGo, access, hj]
  | some k =>
    by_cases hk : k = p.gamePly
    · subst hk; simp [humanGo, access, hj]
    · have : judge p ⟨⟨p.gamePly, some (usiText mv)⟩, none⟩ k (some (usiText mv)) = .waits ⟨⟨p.gamePly, some (usiText mv)⟩, none⟩ := by
        unfold judge; rw [if_pos hk]
      simp [humanGo, access, hj, this]

/-- A person sends an illegal move, then a legal one, and the legal one is played. The
hypotheses hold of this execution. -/
example : humanGo Match.startGame ⟨Input.first, none⟩ [.look, .putMove (some "7g7e".toList), .putNumber 1, .look, .look, .look,
      .putMove (some "7g7f".toList), .putNumber 1, .look, .look] = .takes "7g7f".toList ∧
    Serves [⟨1, some "7g7e".toList⟩, ⟨1, some "7g7f".toList⟩] [.look, .putMove (some "7g7e".toList), .putNumber 1, .look, .look, .look,
      .putMove (some "7g7f".toList), .putNumber 1, .look, .look] ∧
    Settled 1 [Input.first, ⟨1, some "7g7e".toList⟩, ⟨1, some "7g7f".toList⟩] ∧ Match.startGame.gamePly = 1 := by
  refine ⟨?_, ⟨[], rfl⟩, by unfold Settled Input.first; simp, rfl⟩
  have h1 : Match.startGame.usiToMove ['7', 'g', '7', 'e'] = some 0#32 := by decide +kernel
  have h2 : Match.startGame.usiToMove ['7', 'g', '7', 'f'] = some (encode Match.startGame (.move 60 59 false)) := by decide +kernel
  have h3 : Match.startGame.isLegal (encode Match.startGame (.move 60 59 false)) = some true := by decide +kernel
  have h4 : Match.startGame.gamePly = 1 := rfl
  simp [humanGo, access, judge, Input.first, h1, h2, h3, h4, Match.isLegal_zero]

/-- **C102 fails**: an illegal move has been sent for move 1, a page that is two moves ahead or a stranger sends a text for move 3, and the
game reads the number before and the text after the server has stored the text: the text sent for move 3 is played as move 1. -/
theorem C102_fails_race : humanGo Match.startGame ⟨Input.first, none⟩ [.putMove (some "7g7e".toList), .putNumber 1, .look,
      .putMove (some "2g2f".toList), .look, .putNumber 3] = .takes "2g2f".toList ∧
    Serves [⟨1, some "7g7e".toList⟩, ⟨3, some "2g2f".toList⟩] [.putMove (some "7g7e".toList), .putNumber 1, .look,
      .putMove (some "2g2f".toList), .look, .putNumber 3] ∧ Match.startGame.gamePly = 1 := by
  refine ⟨?_, ⟨[], rfl⟩, rfl⟩
  have h2 : Match.startGame.usiToMove ['2', 'g', '2', 'f'] = some (encode Match.startGame (.move 15 14 false)) := by decide +kernel
  have h3 : Match.startGame.isLegal (encode Match.startGame (.move 15 14 false)) = some true := by decide +kernel
  have h4 : Match.startGame.gamePly = 1 := rfl
  simp [humanGo, access, judge, Input.first, h2, h3, h4]

/-- **C102 fails**: in every position a request without a move ends the game with an exception, and one with the text `7g` reads outside of
the text. -/
theorem C102_fails_text (p : Position) (w : Waiting) (hw : w.seen = none) (more : List Access) :
    humanGo p w (.putMove none :: .putNumber p.gamePly :: .look :: .look :: more) = .raises ∧
    humanGo p w (.putMove (some "7g".toList) :: .putNumber p.gamePly :: .look :: .look :: more) = .ub := by
  have h := (C07_fails_reads p).2.1
  constructor
  · simp [humanGo, access, judge, hw]
  · simp [humanGo, access, judge, hw] at h ⊢
    rw [h]

/-- **C102 fails**: a legal drop is taken whatever follows its four characters, a new line as well; what follows is told to the other
player with the moves. So a request can give commands to the engine. -/
theorem C102_fails_command (p : Position) (hp : Consistent p) (hc : CheckOK p) (hr : (absPos p).Regular) (h : HKind) (t : Square)
    (hl : (absPos p).Legal (.drop h t)) (w : Waiting) (hw : w.seen = none) (command : List Char) (words : List (List Char)) (more : List Access) :
    humanGo p w (.putMove (some (usiText (.drop h t) ++ '\n' :: command)) :: .putNumber p.gamePly :: .look :: .look :: more)
      = .takes (usiText (.drop h t) ++ '\n' :: command) ∧
    ∃ line, Usi.positionLine (some (words ++ [usiText (.drop h t) ++ '\n' :: command])) "startpos".toList = line ++ '\n' :: command := by
  obtain ⟨b, -, h1, -, -, h2⟩ := C27_is_legal_partial p hp hc hr (.drop h t) (Legal.promotionOK hl)
  rw [h2.mpr hl] at h1
  constructor
  · have e : p.usiToMove (usiText (.drop h t) ++ '\n' :: command) = p.usiToMove (usiText (.drop h t)) := by
      obtain ⟨a, pc, ea, eu⟩ : ∃ a pc, charToPiece a = some pc ∧ usiText (.drop h t) =
          [a, '*', Char.ofNat (49 + t.val / 9), Char.ofNat (97 + t.val % 9)] := by
        cases h
        · exact ⟨'P', _, rfl, rfl⟩
        · exact ⟨'L', _, rfl, rfl⟩
        · exact ⟨'N', _, rfl, rfl⟩
        · exact ⟨'S', _, rfl, rfl⟩
        · exact ⟨'G', _, rfl, rfl⟩
        · exact ⟨'B', _, rfl, rfl⟩
        · exact ⟨'R', _, rfl, rfl⟩
      rw [eu, List.cons_append, List.cons_append, List.cons_append, List.cons_append, List.nil_append,
        usi_drop p ea (squareOf_usi t), usi_drop p ea (squareOf_usi t)]
    have hj : ∀ w1, judge p w1 p.gamePly (some (usiText (.drop h t) ++ '\n' :: command)) = .takes (usiText (.drop h t) ++ '\n' :: command) := by
      intro w1
      unfold judge
      rw [if_neg (by simp)]
      simp only [e, usi_text h1, h1]
    simp [humanGo, access, hw, hj]
  · have hjoin : ∀ (ws : List (List Char)) (u v : List Char), ∃ l, Usi.joined (ws ++ [u ++ v]) = l ++ v := by
      intro ws u v
      induction ws with
      | nil => exact ⟨u, rfl⟩
      | cons a ws ih =>
        obtain ⟨l, hl⟩ := ih
        refine ⟨a ++ ' ' :: l, ?_⟩
        have : Usi.joined (a :: (ws ++ [u ++ v])) = a ++ ' ' :: Usi.joined (ws ++ [u ++ v]) := by
          cases ws <;> rfl
        rw [List.cons_append, this, hl]; simp
    obtain ⟨l, hl⟩ := hjoin words (usiText (.drop h t)) ('\n' :: command)
    have : ∀ ws : List (List Char), ws ≠ [] → Usi.positionLine (some ws) "startpos".toList =
        "position ".toList ++ ("startpos".toList ++ (" moves ".toList ++ Usi.joined ws)) := by
      intro ws hne
      cases ws with
      | nil => exact absurd rfl hne
      | cons a ws => rfl
    refine ⟨"position ".toList ++ ("startpos".toList ++ (" moves ".toList ++ l)), ?_⟩
    rw [this _ (by simp), hl]
    simp only [List.append_assoc]

/-- The gold that mates in `goldModel` is such a drop. -/
example : Consistent goldModel ∧ CheckOK goldModel ∧ (absPos goldModel).Regular ∧ (absPos goldModel).Legal (.drop .gold 37) := by
  obtain ⟨hi, -, hc, hr⟩ := goldModel_ok
  obtain ⟨b, -, h1, -, -, h2⟩ := C27_is_legal_partial goldModel hi.views hc hr (.drop .gold 37) (fun h => h)
  rw [show goldModel.isLegal (encode goldModel (.drop .gold 37)) = some true by decide +kernel] at h1
  cases h1
  exact ⟨hi.views, hc, hr, h2.mp rfl⟩

/-- **C102 fails**: a side that a person plays under another name than `Human` is asked for a move by `/update` but not in the answer
to a move, whatever has been played; and an engine of the name `Human` the other way round. -/
theorem C102_fails_name (humans : Color → Bool) (names : Color → List Char) (shown : List Entry)
    (hne : ∀ c, humans c = true ↔ names c ≠ "Human".toList) : asked humans shown = none ↔ askedAfterMove names shown ≠ none := by
  have h := hne (if shown.length % 2 = 0 then .black else .white)
  unfold asked askedAfterMove
  by_cases e : names (if shown.length % 2 = 0 then .black else .white) = "Human".toList
  · have hf : humans (if shown.length % 2 = 0 then .black else .white) = false := by
      cases hh : humans (if shown.length % 2 = 0 then .black else .white) with
      | false => rfl
      | true => exact absurd e (h.mp hh)
    simp only [e, hf]; simp
  · simp only [e, h.mpr e]; simp

/-- Two people under the names `A` and `B`. -/
example : ∀ c : Color, (fun _ : Color => true) c = true ↔ (fun c : Color => match c with | .black => ['A'] | .white => ['B']) c ≠ "Human".toList := by
  intro c; cases c <;> decide

end Verif.Web
