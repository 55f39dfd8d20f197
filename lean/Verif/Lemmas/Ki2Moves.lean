import Verif.Lemmas.Ki2Text
import Verif.Spec.Ki2

/-!
# Lemmas about KI2 texts: moves are read back
-/

namespace Verif.Ki2
open Position Kif Spec

theorem from_type (p : Position) (hp : Consistent p) {s t : Square} {pro : Bool} {c : Color} {k : Kind}
    (hb : (absPos p).board s = some (c, k)) : (encode p (.move s t pro)).pieceTypeFrom = k.code := by
  have hf := C01_board_move_fields p.piece s t pro
  simp only [readBoardMove, Prod.mk.injEq] at hf
  exact hf.2.2.1.trans (pieceType_at hp hb)

theorem hand_dropped (p : Position) (h : HKind) (t : Square) : (encode p (.drop h t)).handPieceDropped = h.code ∧ handToPt h.code = h.kind.code := by
  obtain ⟨-, -, -, h2, -⟩ := drop_fields h t
  refine ⟨?_, by cases h <;> rfl⟩
  show (makeDropMove h.kind.code t.val).handPieceDropped = h.code
  unfold Move.handPieceDropped
  rw [h2]
  cases h <;> rfl

theorem kcode_inj {k k' : Kind} (h : k.code = k'.code) : k = k' := by
  revert h; cases k <;> cases k' <;> decide

theorem once_spec (l : List Nat) : (once l).Nodup ∧ ∀ x, x ∈ once l ↔ x ∈ l := by
  have key : ∀ (l acc : List Nat), acc.Nodup → (l.foldl (fun acc s => if s ∈ acc then acc else acc ++ [s]) acc).Nodup ∧
      ∀ x, x ∈ l.foldl (fun acc s => if s ∈ acc then acc else acc ++ [s]) acc ↔ x ∈ acc ∨ x ∈ l := by
    intro l
    induction l with
    | nil => intro acc h; exact ⟨h, fun x => by simp⟩
    | cons y l ih =>
      intro acc h
      rw [List.foldl_cons]
      by_cases hy : y ∈ acc
      · rw [if_pos hy]
        obtain ⟨h1, h2⟩ := ih acc h
        refine ⟨h1, fun x => ?_⟩
        rw [h2, List.mem_cons]
        constructor
        · rintro (h | h)
          · exact Or.inl h
          · exact Or.inr (Or.inr h)
        · rintro (h | h | h)
          · exact Or.inl h
          · exact Or.inl (h ▸ hy)
          · exact Or.inr h
      · rw [if_neg hy]
        obtain ⟨h1, h2⟩ := ih (acc ++ [y]) (by
          rw [List.nodup_append]
          refine ⟨h, by simp, ?_⟩
          rintro a ha b hb rfl
          rw [List.mem_singleton] at hb
          exact hy (hb ▸ ha))
        refine ⟨h1, fun x => ?_⟩
        rw [h2, List.mem_append, List.mem_singleton, List.mem_cons, or_assoc]
  obtain ⟨h1, h2⟩ := key l [] (by simp)
  exact ⟨h1, fun x => by rw [once, h2]; simp⟩

/-- The origins found in a list of pseudo-legal moves. -/
theorem reach_mem {p : Position} (hp : Consistent p) {l : List Move} (hl : ∀ m ∈ l, ∃ mv, m = encode p mv ∧ (absPos p).Pseudo mv) (t : Square) (k : Kind) (n : Nat) :
    n ∈ reach l t.val k.code ↔ ∃ s pro, n = s.val ∧ encode p (.move s t pro) ∈ l ∧ (absPos p).board s = some (p.turn, k) ∧ (absPos p).Pseudo (.move s t pro) := by
  unfold reach
  rw [List.mem_map]
  constructor
  · rintro ⟨m, hm, rfl⟩
    rw [List.mem_filter] at hm
    obtain ⟨h1, h2⟩ := hm
    obtain ⟨mv, rfl, hps⟩ := hl m h1
    simp only [Bool.and_eq_true, decide_eq_true_eq, Bool.not_eq_true'] at h2
    obtain ⟨⟨h2, h3⟩, h4⟩ := h2
    cases mv with
    | drop h t' => rw [show (encode p (.drop h t')).isDrop = true from (drop_fields h t').2.2.1] at h3; cases h3
    | move s t' pro =>
      obtain ⟨k', hk, -⟩ := id hps
      rw [from_type p hp hk] at h4
      obtain rfl := kcode_inj h4
      obtain ⟨e1, e2, -⟩ := src_eq p s t' pro
      have : t' = t := Fin.ext (e2.symm.trans h2)
      subst this
      exact ⟨s, pro, e1, h1, hk, hps⟩
  · rintro ⟨s, pro, rfl, h1, h2, -⟩
    obtain ⟨e1, e2, -⟩ := src_eq p s t pro
    refine ⟨_, List.mem_filter.mpr ⟨h1, ?_⟩, e1⟩
    rw [show (encode p (.move s t pro)).dst = t.val from e2, encode_isDrop, from_type p hp h2]
    simp

theorem reach_count {p : Position} (hp : Consistent p) {l : List Move} (hn : l.Nodup) (hl : ∀ m ∈ l, ∃ mv, m = encode p mv ∧ (absPos p).Pseudo mv)
    {s t : Square} {k : Kind} (hk : (absPos p).board s = some (p.turn, k)) (h1 : encode p (.move s t true) ∈ l)
    (h2 : encode p (.move s t false) ∈ l) : (reach l t.val k.code).count s.val = 2 := by
  unfold reach
  rw [List.count, List.countP_map, List.countP_eq_length_filter, List.filter_filter]
  obtain ⟨f, hf⟩ : ∃ f, f = fun a : Move => ((fun x => x == s.val) ∘ Move.src) a && (decide (a.dst = t.val) && !a.isDrop && decide (a.pieceTypeFrom = k.code)) := ⟨_, rfl⟩
  rw [← hf]
  have hin : ∀ pro, f (encode p (.move s t pro)) = true := by
    intro pro
    obtain ⟨e1, e2, -⟩ := src_eq p s t pro
    rw [hf]
    simp only [Function.comp]
    rw [show (encode p (.move s t pro)).dst = t.val from e2, show (encode p (.move s t pro)).src = s.val from e1, encode_isDrop, from_type p hp hk]
    simp
  have hne : encode p (.move s t true) ≠ encode p (.move s t false) := fun e => by have := encode_inj p e; cases this
  have hsub : ∀ x ∈ l.filter f, x ∈ [encode p (.move s t true), encode p (.move s t false)] := by
    intro x hx
    obtain ⟨a1, a2⟩ := List.mem_filter.mp hx
    obtain ⟨mv, rfl, hps⟩ := hl x a1
    rw [hf] at a2
    simp only [Function.comp, Bool.and_eq_true, decide_eq_true_eq, Bool.not_eq_true', beq_iff_eq] at a2
    obtain ⟨b1, ⟨b2, b3⟩, -⟩ := a2
    cases mv with
    | drop h t' => rw [show (encode p (.drop h t')).isDrop = true from (drop_fields h t').2.2.1] at b3; cases b3
    | move s' t' pro =>
      obtain ⟨e1, e2, -⟩ := src_eq p s' t' pro
      have : t' = t := Fin.ext (e2.symm.trans b2)
      have : s' = s := Fin.ext (e1.symm.trans b1)
      subst_vars
      cases pro <;> simp
  have g1 := (List.subperm_of_subset (hn.filter f) hsub).length_le
  have g2 := (List.subperm_of_subset (l₁ := [encode p (.move s t true), encode p (.move s t false)]) (by simp [hne]) (l₂ := l.filter f) (by
    intro x hx
    simp only [List.mem_cons, List.not_mem_nil, or_false] at hx
    rcases hx with rfl | rfl
    · exact List.mem_filter.mpr ⟨h1, hin true⟩
    · exact List.mem_filter.mpr ⟨h2, hin false⟩)).length_le
  simp only [List.length_cons, List.length_nil] at g1 g2
  omega

/-- The moves the parser considers. -/
theorem all_mem {p : Position} (hp : Consistent p) {l : List Move} (hl : ∀ m, m ∈ l ↔ ∃ mv, m = encode p mv ∧ (absPos p).Legal mv) (t : Square) (k : Kind) (m : Move) :
    m ∈ (l.filter fun m => m.dst = t.val && broughtType m = (k.code - 1) + 1) ↔
      (∃ s pro, m = encode p (.move s t pro) ∧ (absPos p).board s = some (p.turn, k) ∧ (absPos p).Legal (.move s t pro)) ∨
      ∃ h : HKind, m = encode p (.drop h t) ∧ h.kind = k ∧ (absPos p).Legal (.drop h t) := by
  have hk1 : k.code - 1 + 1 = k.code := by cases k <;> rfl
  rw [hk1, List.mem_filter, hl]
  constructor
  · rintro ⟨⟨mv, rfl, hm⟩, h2⟩
    simp only [Bool.and_eq_true, decide_eq_true_eq] at h2
    obtain ⟨h2, h3⟩ := h2
    unfold broughtType at h3
    cases mv with
    | drop h t' =>
      have hd : (encode p (.drop h t')).isDrop = true := (drop_fields h t').2.2.1
      rw [hd, if_pos rfl, (hand_dropped p h t').1, (hand_dropped p h t').2] at h3
      have : t' = t := Fin.ext ((show (encode p (.drop h t')).dst = t'.val from (drop_fields h t').2.1).symm.trans h2)
      subst this
      exact Or.inr ⟨h, rfl, kcode_inj h3, hm⟩
    | move s t' pro =>
      rw [encode_isDrop] at h3
      obtain ⟨k', hk, -⟩ := id hm.1.1
      rw [if_neg (by decide), from_type p hp hk] at h3
      obtain rfl := kcode_inj h3
      obtain ⟨e1, e2, -⟩ := src_eq p s t' pro
      have : t' = t := Fin.ext (e2.symm.trans h2)
      subst this
      exact Or.inl ⟨s, pro, rfl, hk, hm⟩
  · rintro (⟨s, pro, rfl, hk, hm⟩ | ⟨h, rfl, rfl, hm⟩)
    · refine ⟨⟨_, rfl, hm⟩, ?_⟩
      obtain ⟨e1, e2, -⟩ := src_eq p s t pro
      unfold broughtType
      rw [show (encode p (.move s t pro)).dst = t.val from e2, encode_isDrop, from_type p hp hk]
      simp
    · refine ⟨⟨_, rfl, hm⟩, ?_⟩
      unfold broughtType
      rw [show (encode p (.drop h t)).isDrop = true from (drop_fields h t).2.2.1, show (encode p (.drop h t)).dst = t.val from (drop_fields h t).2.1,
        (hand_dropped p h t).1, if_pos rfl, (hand_dropped p h t).2]
      simp

/-- The text of a move, what the pattern finds in it, and the move meant. -/
theorem move_read {Z : Zobrist} {b : Board} (hg : Csa.Good Z b.pos) {mv : Mv} (hm : (absPos b.pos).Legal mv) (hpl : (absPos b.pos).Plain mv) :
    ∃ text h, moveToKi2 b (encode b.pos mv) = some (turnChar b.pos.turn :: text) ∧
      moveRe (normalise (turnChar b.pos.turn :: text)) = some (h, []) ∧ findMove b h = .ok (encode b.pos mv) ∧
      ∀ y ∈ turnChar b.pos.turn :: text, y ≠ '：' ∧ y ≠ '\n' ∧ y ≠ '\r' := by
  have hp := hg.inv.views
  obtain ⟨L, eL, nL, hL, hLm⟩ := genPseudo_spec hp hg.check hg.regular
  obtain ⟨l, el, nl, hl⟩ := genLegal_spec hp hg.check hg.regular
  have hmL : ∀ mv, (absPos b.pos).Legal mv → encode b.pos mv ∈ L := fun mv h => ((hLm _).mpr ⟨mv, rfl, h⟩).1
  cases mv with
  | drop h t =>
    have hdst : (encode b.pos (.drop h t)).dst = t.val := (drop_fields h t).2.1
    have hdrop : (encode b.pos (.drop h t)).isDrop = true := (drop_fields h t).2.2.1
    obtain ⟨hh1, hh2⟩ := hand_dropped b.pos h t
    obtain ⟨d, x, d1, d2, d3⟩ := destText_spec b _ t hdst
    obtain ⟨c, c1, c2, c3, c4, c5⟩ := handNames_ok h
    obtain ⟨tl, htl, htl', htd⟩ : ∃ tl : Tail, tl ∈ [Tail.none, .drop] ∧
        (if reach l t.val h.kind.code ≠ [] then ['打'] else []) = tl.chars ∧ (tl = .none → reach l t.val h.kind.code = []) := by
      by_cases e : reach l t.val h.kind.code ≠ []
      · exact ⟨.drop, by simp, by rw [if_pos e]; rfl, by simp⟩
      · exact ⟨.none, by simp, by rw [if_neg e]; rfl, fun _ => not_not.mp e⟩
    have htext : moveToKi2 b (encode b.pos (.drop h t)) = some (turnChar b.pos.turn :: spaced (d ++ ([c] ++ ([] ++ tl.chars)))) := by
      unfold moveToKi2 dropText
      rw [if_pos hdrop, el, Option.bind_some, d1, Option.bind_some, hh1, c1, Option.map_some, Option.map_some, hdst, hh2, htl']
      rfl
    obtain ⟨r1, r2⟩ := text_read d3 (n := [c]) (by simpa using c4) (by simp) c2 (q := []) (by decide) (c5 tl htl) b.pos.turn
    refine ⟨_, _, htext, r1, ?_, ?_⟩
    · unfold findMove
      simp only [c3, d2, el]
      obtain ⟨all, hall⟩ : ∃ all, all = l.filter fun m => m.dst = t.val && broughtType m = h.kind.code - 1 + 1 := ⟨_, rfl⟩
      rw [← hall]
      have hmem := all_mem hp hl t h.kind
      rw [← hall] at hmem
      have hmall : encode b.pos (.drop h t) ∈ all := (hmem _).mpr (Or.inr ⟨h, rfl, rfl, hm⟩)
      have e : pick (byTail tl (byDir b.pos.turn all (dirWord []) (byRel b.pos.turn all (relWord []) all))) = some (encode b.pos (.drop h t)) := by
        have e1 : byDir b.pos.turn all (dirWord []) (byRel b.pos.turn all (relWord []) all) = all := rfl
        rw [e1]
        have e2 : byTail tl all = [encode b.pos (.drop h t)] := by
          have hsub := byTail_sub tl all
          apply eq_singleton (hsub.nodup (hall ▸ nl.filter _))
          · cases tl
            · exact hmall
            · exact List.mem_filter.mpr ⟨hmall, hdrop⟩
            all_goals simp at htl
          · intro y hy
            rcases (hmem y).mp (hsub.subset hy) with ⟨s, pro, rfl, hk, hs⟩ | ⟨h', rfl, hk, -⟩
            · exfalso
              cases tl
              · have := (reach_mem (l := l) hp (fun m hm => by obtain ⟨mv, e, h⟩ := (hl m).mp hm; exact ⟨mv, e, h.1.1⟩) t h.kind s.val).mpr
                  ⟨s, pro, rfl, (hl _).mpr ⟨_, rfl, hs⟩, hk, hs.1.1⟩
                rw [htd rfl] at this; cases this
              · have := (List.mem_filter.mp hy).2
                rw [encode_isDrop] at this; cases this
              all_goals simp at htl
            · have : h' = h := by revert hk; cases h' <;> cases h <;> decide
              rw [this]
        rw [e2]; rfl
      rw [e]
    · intro y hy
      have := r2 y hy
      obtain ⟨-, hpl⟩ := fileCh_plain t
      rcases List.mem_append.mp this with h' | h'
      · exact (hpl y h').2.2.2
      · have : y ∈ pieceChars ++ ['打'] := by
          simp only [List.nil_append, List.singleton_append, List.mem_cons] at h'
          rcases h' with rfl | h'
          · exact List.mem_append_left _ c2
          · refine List.mem_append_right _ ?_
            cases tl
            · cases h'
            · exact h'
            all_goals simp at htl
        have hset : ∀ y ∈ pieceChars ++ ['打'], y ≠ '：' ∧ y ≠ '\n' ∧ y ≠ '\r' := by decide
        exact hset y this
  | move s t pro =>
    obtain ⟨k, hk, hatt, hown, -⟩ := id hm.1.1
    have hsrc : (encode b.pos (.move s t pro)).src = s.val := (src_eq b.pos s t pro).1
    have hdst : (encode b.pos (.move s t pro)).dst = t.val := (src_eq b.pos s t pro).2.1
    have hpro : (encode b.pos (.move s t pro)).isPromotion = pro := (src_eq b.pos s t pro).2.2
    have hdrop : (encode b.pos (.move s t pro)).isDrop = false := encode_isDrop _ _ _ _
    have hfrom : (encode b.pos (.move s t pro)).pieceTypeFrom = k.code := from_type b.pos hp hk
    obtain ⟨d, x, d1, d2, d3⟩ := destText_spec b _ t hdst
    obtain ⟨n, c, n1, n2, n3, n4, n5, n6⟩ := names_ok k
    obtain ⟨r, hr⟩ : ∃ r, r = reach L t.val k.code := ⟨_, rfl⟩
    have hrm := reach_mem hp hL t k
    rw [← hr] at hrm
    have hsr : s.val ∈ r := (hrm _).mpr ⟨s, pro, rfl, hmL _ hm, hk, hm.1.1⟩
    obtain ⟨all, hall⟩ : ∃ all, all = l.filter fun m => m.dst = t.val && broughtType m = k.code - 1 + 1 := ⟨_, rfl⟩
    have hmem := all_mem hp hl t k
    rw [← hall] at hmem
    have hmall : encode b.pos (.move s t pro) ∈ all := (hmem _).mpr (Or.inl ⟨s, pro, rfl, hk, hm⟩)
    -- the words
    obtain ⟨q, hq⟩ : ∃ q, q = if 1 < ((once r).map (seen b.pos.turn)).length then
        qualifiers ((once r).map (seen b.pos.turn)) k.code (seen b.pos.turn s.val) (seen b.pos.turn t.val) else [] := ⟨_, rfl⟩
    obtain ⟨o1, o2⟩ := once_spec r
    have hrival : ∀ n ∈ r, n ≠ s.val → ∃ u : Square, n = u.val ∧ (absPos b.pos).Rival s t u := by
      intro n hn hne
      obtain ⟨u, pro', rfl, -, hu, hps⟩ := (hrm n).mp hn
      exact ⟨u, rfl, fun e => hne (by rw [e]), ⟨k, hk, hu⟩, pro', hps⟩
    have hkeep : q ∈ words ∧ encode b.pos (.move s t pro) ∈ byDir b.pos.turn all (dirWord q) (byRel b.pos.turn all (relWord q) all) ∧
        ∀ x ∈ byDir b.pos.turn all (dirWord q) (byRel b.pos.turn all (relWord q) all), x.isDrop = false → x.src = s.val := by
      by_cases hno : ∀ s', ¬ (absPos b.pos).Rival s t s'
      · have hlen : ¬ 1 < ((once r).map (seen b.pos.turn)).length := by
          have : once r = [s.val] := eq_singleton o1 ((o2 _).mpr hsr) fun y hy => by
            by_contra hne
            obtain ⟨u, -, hu⟩ := hrival y ((o2 y).mp hy) hne
            exact hno u hu
          rw [this]; simp
        rw [if_neg hlen] at hq
        subst hq
        refine ⟨by decide, hmall, fun y hy hyd => ?_⟩
        have hy' : y ∈ all := hy
        rcases (hmem y).mp hy' with ⟨u, pro', rfl, hu, hleg⟩ | ⟨h', rfl, -, -⟩
        · rw [show (encode b.pos (.move u t pro')).src = u.val from (src_eq b.pos u t pro').1]
          by_contra hne
          exact hno u ⟨fun e => hne (by rw [e]), ⟨k, hk, hu⟩, pro', hleg.1.1⟩
        · rw [show (encode b.pos (.drop h' t)).isDrop = true from (drop_fields h' t).2.2.1] at hyd; cases hyd
      · obtain ⟨hone, hnodrop⟩ := hpl.resolve_left hno
        by_cases hlen : 1 < ((once r).map (seen b.pos.turn)).length
        · rw [if_pos hlen] at hq
          -- the two origins
          obtain ⟨u, hu, hos⟩ : ∃ u : Square, (absPos b.pos).Rival s t u ∧ (once r = [s.val, u.val] ∨ once r = [u.val, s.val]) := by
            rw [List.length_map] at hlen
            match ho : once r, hlen, o1 with
            | a :: a' :: rest, _, o1 =>
              have hna : a ≠ a' := by intro e; subst e; simp at o1
              have ha : a ∈ r := (o2 a).mp (by rw [ho]; simp)
              have ha' : a' ∈ r := (o2 a').mp (by rw [ho]; simp)
              have hrest : rest = [] := by
                cases rest with
                | nil => rfl
                | cons a'' rest =>
                  exfalso
                  have ha'' : a'' ∈ r := (o2 a'').mp (by rw [ho]; simp)
                  simp only [List.nodup_cons, List.mem_cons, not_or] at o1
                  obtain ⟨⟨-, n1, -⟩, ⟨n2, -⟩, -⟩ := o1
                  have two : ∀ a ∈ r, ∀ a' ∈ r, a ≠ s.val → a' ≠ s.val → a = a' := by
                    intro a ha a' ha' h1 h2
                    obtain ⟨u, rfl, hu⟩ := hrival a ha h1
                    obtain ⟨u', rfl, hu'⟩ := hrival a' ha' h2
                    rw [hone u u' hu hu']
                  by_cases e1 : a = s.val
                  · exact n2 (two a' ha' a'' ha'' (fun e => hna (e1.trans e.symm)) (fun e => n1 (e1.trans e.symm)))
                  · by_cases e2 : a' = s.val
                    · exact n1 (two a ha a'' ha'' e1 (fun e => n2 (e2.trans e.symm)))
                    · exact hna (two a ha a' ha' e1 e2)
              subst hrest
              have hs' := (o2 s.val).mpr hsr
              rw [ho] at hs'
              simp only [List.mem_cons, List.not_mem_nil, or_false] at hs'
              rcases hs' with e | e
              · obtain ⟨u, rfl, hu⟩ := hrival a' ha' (fun e' => hna (e ▸ e'.symm))
                exact ⟨u, hu, Or.inl (by rw [e])⟩
              · obtain ⟨u, rfl, hu⟩ := hrival a ha (fun e' => hna (e'.trans e))
                exact ⟨u, hu, Or.inr (by rw [e])⟩
          obtain ⟨hus, ⟨k', hk1, hk2⟩, pro', k'', hk3, hatt', -⟩ := id hu
          rw [hk] at hk1
          obtain rfl : k = k' := by cases hk1; rfl
          rw [hk2] at hk3
          obtain rfl : k = k'' := by cases hk3; rfl
          have hocc : ∀ v, (absPos b.pos).board v = some ((absPos b.pos).turn, k) → (absPos b.pos).occ v = true := by
            intro v hv; unfold Pos.occ; rw [hv]; rfl
          have hst : s ≠ t := by rintro rfl; exact hown _ hk
          obtain ⟨w, hw1, hw2⟩ := qualifiers_two (os := (once r).map (seen b.pos.turn)) (pt := k.code) (f := seen b.pos.turn s.val)
            (g := seen b.pos.turn u.val) (t := seen b.pos.turn t.val) (by rcases hos with e | e <;> rw [e] <;> simp)
            (fun e => hst (seen_inj e)) (fun e => hus (seen_inj e).symm)
            (fun e => hus (one_from_side hatt hatt' (hocc s hk) (hocc u hk2) (rel_sign e.1) (dirOf_sign e.2)).symm)
          rw [hw1] at hq
          subst hq
          obtain ⟨f1, f2, f3⟩ := filter_word (turn := b.pos.turn) hw2 hmall hsrc (fun y hy => by
            rcases (hmem y).mp hy with ⟨v, pro', rfl, hv, hleg⟩ | ⟨h', rfl, rfl, hleg⟩
            · rw [show (encode b.pos (.move v t pro')).src = v.val from (src_eq b.pos v t pro').1]
              refine ⟨?_, (src_eq b.pos v t pro').2.1⟩
              by_cases e : v = s
              · exact Or.inl (by rw [e])
              · exact Or.inr (by rw [hone v u ⟨e, ⟨k, hk, hv⟩, pro', hleg.1.1⟩ hu])
            · exact absurd hleg (hnodrop h' hk))
          exact ⟨f1, f2, fun y hy _ => f3 y hy⟩
        · rw [if_neg hlen] at hq
          subst hq
          refine ⟨by decide, hmall, fun y hy hyd => ?_⟩
          have hy' : y ∈ all := hy
          rcases (hmem y).mp hy' with ⟨u, pro', rfl, hu, hleg⟩ | ⟨h', rfl, -, -⟩
          · rw [show (encode b.pos (.move u t pro')).src = u.val from (src_eq b.pos u t pro').1]
            have hur : u.val ∈ r := (hrm _).mpr ⟨u, pro', rfl, hmL _ hleg, hu, hleg.1.1⟩
            rw [List.length_map] at hlen
            have h1 := (o2 _).mpr hsr
            have h2 := (o2 _).mpr hur
            match once r, hlen, h1, h2 with
            | [a], _, h1, h2 => rw [List.mem_singleton.mp h1, List.mem_singleton.mp h2]
            | a :: a' :: rest, hlen, _, _ => simp at hlen
          · rw [show (encode b.pos (.drop h' t)).isDrop = true from (drop_fields h' t).2.2.1] at hyd; cases hyd
    obtain ⟨w1, w2, w3⟩ := hkeep
    -- the ending
    obtain ⟨tl, htl, htl1, htl2⟩ : ∃ tl : Tail, tl ∈ [Tail.none, .pro, .noPro] ∧
        (if pro then some (d ++ (n ++ (q ++ ['成']))) else some (d ++ (n ++ (q ++ if r.count s.val = 2 then ['不', '成'] else [])))) =
          some (d ++ (n ++ (q ++ tl.chars))) ∧
        ∀ F : List Move, (∀ x ∈ F, x ∈ all) → encode b.pos (.move s t pro) ∈ F → (∀ x ∈ F, x.isDrop = false → x.src = s.val) →
          encode b.pos (.move s t pro) ∈ byTail tl F ∧ ∀ x ∈ byTail tl F, x.isDrop = false → x = encode b.pos (.move s t pro) := by
      have hbase : ∀ x ∈ all, x.isDrop = false → x.src = s.val → ∃ pro', x = encode b.pos (.move s t pro') ∧ (absPos b.pos).Legal (.move s t pro') := by
        intro x hx hxd hxs
        rcases (hmem x).mp hx with ⟨u, pro', rfl, hu, hleg⟩ | ⟨h', rfl, -, -⟩
        · rw [show (encode b.pos (.move u t pro')).src = u.val from (src_eq b.pos u t pro').1] at hxs
          have : u = s := Fin.ext hxs
          subst this
          exact ⟨pro', rfl, hleg⟩
        · rw [show (encode b.pos (.drop h' t)).isDrop = true from (drop_fields h' t).2.2.1] at hxd; cases hxd
      have hfl : ∀ pro', (encode b.pos (.move s t pro')).isPromotion = pro' := fun pro' => (src_eq b.pos s t pro').2.2
      cases pro with
      | true =>
        refine ⟨.pro, by simp, rfl, fun F hF hmF hd => ⟨List.mem_filter.mpr ⟨hmF, hpro⟩, fun x hx hxd => ?_⟩⟩
        obtain ⟨h1, h2⟩ := List.mem_filter.mp hx
        obtain ⟨pro', rfl, -⟩ := hbase x (hF x h1) hxd (hd x h1 hxd)
        rw [hfl] at h2
        rw [h2]
      | false =>
        by_cases h2 : r.count s.val = 2
        · refine ⟨.noPro, by simp, by rw [if_neg (by decide), if_pos h2]; rfl, fun F hF hmF hd => ⟨List.mem_filter.mpr ⟨hmF, by rw [hpro]; rfl⟩, fun x hx hxd => ?_⟩⟩
          obtain ⟨h1, h2⟩ := List.mem_filter.mp hx
          obtain ⟨pro', rfl, -⟩ := hbase x (hF x h1) hxd (hd x h1 hxd)
          rw [hfl] at h2
          cases pro'
          · rfl
          · cases h2
        · refine ⟨.none, by simp, by rw [if_neg (by decide), if_neg h2]; rfl, fun F hF hmF hd => ⟨hmF, fun x hx hxd => ?_⟩⟩
          obtain ⟨pro', rfl, hleg⟩ := hbase x (hF x hx) hxd (hd x hx hxd)
          cases pro'
          · rfl
          · exact absurd (hr ▸ reach_count hp nL hL hk (hmL _ hleg) (hmL _ hm)) h2
    have htext : moveToKi2 b (encode b.pos (.move s t pro)) = some (turnChar b.pos.turn :: spaced (d ++ (n ++ (q ++ tl.chars)))) := by
      unfold moveToKi2 boardText
      rw [if_neg (by rw [hdrop]; decide), eL]
      simp only [Option.bind_some, d1, hfrom, hdst, hsrc, n1, hpro, ← hr, if_pos hsr, ← hq]
      rw [htl1, Option.map_some]
    obtain ⟨r1, r2⟩ := text_read d3 n4 n5 n2 w1 (n6 q w1 tl htl) b.pos.turn
    refine ⟨_, _, htext, r1, ?_, ?_⟩
    · unfold findMove
      simp only [n3, d2, el, ← hall]
      obtain ⟨F, hF⟩ : ∃ F, F = byDir b.pos.turn all (dirWord q) (byRel b.pos.turn all (relWord q) all) := ⟨_, rfl⟩
      rw [← hF] at w2 w3
      rw [← hF]
      have hsubF : F.Sublist all := by rw [hF]; exact (byDir_sub _ _ _ _).trans (byRel_sub _ _ _ _)
      obtain ⟨t1, t2⟩ := htl2 F (fun x hx => hsubF.subset hx) w2 w3
      have hnd : (byTail tl F).Nodup := ((byTail_sub tl F).trans hsubF).nodup (hall ▸ nl.filter _)
      rw [pick_board hnd t1 hdrop t2]
    · intro y hy
      have := r2 y hy
      obtain ⟨-, hpl'⟩ := fileCh_plain t
      rcases List.mem_append.mp this with h' | h'
      · exact (hpl' y h').2.2.2
      · have hset : ∀ k : Kind, ∀ n, pieceName k.code = some n → ∀ q ∈ words, ∀ tl ∈ [Tail.none, .pro, .noPro], ∀ y ∈ n ++ (q ++ tl.chars),
            y ≠ '：' ∧ y ≠ '\n' ∧ y ≠ '\r' := by
          intro k n hn
          have : ∀ k : Nat, k < 15 → ∀ n ∈ (pieceName k).toList, ∀ q ∈ words, ∀ tl ∈ [Tail.none, .pro, .noPro], ∀ y ∈ n ++ (q ++ tl.chars),
              y ≠ '：' ∧ y ≠ '\n' ∧ y ≠ '\r' := by decide
          exact this k.code (by cases k <;> decide) n (by rw [hn]; simp)
        exact hset k n n1 q w1 tl htl y h'

end Verif.Ki2
