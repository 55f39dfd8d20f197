import Verif.Lemmas.Copy
import Verif.Spec.Start
import Verif.Props.Hcp

/-!
# C44: copied boards, C51: set_position after an error
-/

namespace Verif
namespace Mem
open Position

/-! ### C44 -/

/-- The two objects have no record in common. -/
def Apart (b c : HBoard) : Prop := ∀ x ∈ b.own, x ∉ c.own

theorem Apart.symm {b c : HBoard} (h : Apart b c) : Apart c b := fun x hx hy => h x hy hx

/-- **C44** (operations): an operation on a board object is defined exactly when it is for the board shown, its result shows the
result, and only records of this object and the newly allocated record change. -/
theorem C44_step {h : Heap} {b : HBoard} {B : Board} (hr : Rep h b B) (Z : Zobrist) {a : Addr} (ha : a ∉ b.own) (op : Op) :
    (Mem.step Z h b a op = none ↔ B.step Z op = none) ∧
    ∀ h' b', Mem.step Z h b a op = some (h', b') → (∃ B', B.step Z op = some B' ∧ Rep h' b' B') ∧
      b'.start = b.start ∧ (∀ x ∈ b'.own, x ∈ b.own ∨ x = a) ∧ ∀ x, x ∉ b.own → x ≠ a → h' x = h x := by
  have hs := hr.step Z ha op
  unfold StepOK at hs
  cases hB : B.step Z op with
  | none =>
    rw [hB] at hs
    simp only at hs
    rw [hs]
    exact ⟨by simp, fun h' b' e => by cases e⟩
  | some B' =>
    rw [hB] at hs
    obtain ⟨h1, b1, e, r, i, o, f⟩ := hs
    rw [e]
    refine ⟨by simp, fun h' b' e' => ?_⟩
    cases e'
    exact ⟨⟨B', rfl, r⟩, i, o, f⟩

/-- **C44** (reads): the outcome of an operation is determined by the records of the object itself: with any other contents of the
rest of the memory it gives the same object and writes the same values in the same places. -/
theorem C44_reads {h k : Heap} {b : HBoard} (hst : b.st ∈ b.own) (hf : ∀ x ∈ b.own, k x = h x) (Z : Zobrist) (a : Addr) (op : Op) :
    (Mem.step Z k b a op).map Prod.snd = (Mem.step Z h b a op).map Prod.snd ∧
    ∀ h' k' b', Mem.step Z h b a op = some (h', b') → Mem.step Z k b a op = some (k', b') → 
      ∀ x, k' x = h' x ∨ k' x = k x ∧ h' x = h x := by
  obtain ⟨body, start, st, hist⟩ := b
  have e := hf st hst
  have hu : ∀ (h k : Heap) (y : Addr) (r : Option Rec) (x : Addr), (upd k y r x = upd h y r x ∨ upd k y r x = k x ∧ upd h y r x = h x) := by
    intro h k y r x
    unfold upd
    split
    · exact .inl rfl
    · exact .inr ⟨rfl, rfl⟩
  cases op with
  | push m =>
    simp only [Mem.step, Mem.push, e]
    cases h st with
    | none => exact ⟨rfl, fun _ _ _ e => by cases e⟩
    | some r =>
      simp only
      cases doMove Z (body.see r.info []) m with
      | none => exact ⟨rfl, fun _ _ _ e => by cases e⟩
      | some p =>
        refine ⟨rfl, fun h' k' b' e1 e2 x => ?_⟩
        cases e1; cases e2
        exact hu _ _ _ _ _
  | pop =>
    simp only [Mem.step, Mem.pop]
    cases hist with
    | nil => exact ⟨rfl, fun _ _ _ e => by cases e⟩
    | cons y hist =>
      cases y with
      | pass y => exact ⟨rfl, fun _ _ _ e => by cases e⟩
      | move m y =>
        simp only [e]
        cases h st with
        | none => exact ⟨rfl, fun _ _ _ e => by cases e⟩
        | some r =>
          simp only
          cases r.previous with
          | none => exact ⟨rfl, fun _ _ _ e => by cases e⟩
          | some pr =>
            simp only
            cases undoMove (body.see r.info [r.info]) m with
            | none => exact ⟨rfl, fun _ _ _ e => by cases e⟩
            | some p =>
              refine ⟨rfl, fun h' k' b' e1 e2 x => ?_⟩
              cases e1; cases e2
              exact hu _ _ _ _ _
  | pushPass =>
    simp only [Mem.step, Mem.pushPass, e]
    cases h st with
    | none => exact ⟨rfl, fun _ _ _ e => by cases e⟩
    | some r =>
      simp only
      by_cases hc : (body.see r.info []).inCheck
      · rw [if_pos hc, if_pos hc]; exact ⟨rfl, fun _ _ _ e => by cases e⟩
      · rw [if_neg hc, if_neg hc]
        refine ⟨rfl, fun h' k' b' e1 e2 x => ?_⟩
        cases e1; cases e2
        unfold upd
        by_cases h1 : x = st
        · simp only [h1, if_true]; exact .inl trivial
        · by_cases h2 : x = a
          · simp only [h1, h2, if_true]; exact .inl trivial
          · simp only [h1, h2, if_false]; exact .inr ⟨trivial, trivial⟩
  | popPass =>
    simp only [Mem.step, Mem.popPass]
    cases hist with
    | nil => exact ⟨rfl, fun _ _ _ e => by cases e⟩
    | cons y hist =>
      cases y with
      | move m y => exact ⟨rfl, fun _ _ _ e => by cases e⟩
      | pass y =>
        have e' := hf y (by unfold HBoard.own; simp [Entry.addr])
        simp only [e, e']
        cases h st with
        | none => exact ⟨rfl, fun _ _ _ e => by cases e⟩
        | some r =>
          cases h y with
          | none => exact ⟨rfl, fun _ _ _ e => by cases e⟩
          | some k' =>
            refine ⟨rfl, fun h' k' b' e1 e2 x => ?_⟩
            cases e1; cases e2
            unfold upd
            by_cases h1 : x = y
            · simp only [h1, if_true]; exact .inl trivial
            · by_cases h2 : x = st
              · simp only [h1, h2, if_true]; exact .inl trivial
              · simp only [h1, h2, if_false]; exact .inr ⟨trivial, trivial⟩

/-- **C44** (copy construction): copying never fails; the copy shows the same board with its full history of states, the original
is untouched, and the two objects have no record in common. -/
theorem C44_copy {h : Heap} {b : HBoard} {B : Board} (hr : Rep h b B) {start : Addr} {as : List Addr} (hlen : as.length = b.hist.length)
    (hn : (start :: as).Nodup) (hfree : ∀ x ∈ start :: as, h x = none) :
    ∃ h' b', copyTo h b start as = some (h', b') ∧ Rep h' b' B ∧ Rep h' b B ∧ Apart b' b ∧ b'.own = start :: as ∧
      ∀ x, x ∉ start :: as → h' x = h x := by
  have hd : ∀ x ∈ start :: as, x ∉ b.own := by
    intro x hx ho
    obtain ⟨r, e, -⟩ := hr.alloc x ho
    rw [hfree x hx] at e
    cases e
  obtain ⟨h', b', e, r, o, f⟩ := hr.copyTo hlen hn hd
  exact ⟨h', b', e, r, hr.frame fun a ha => f a fun hx => hd a hx ha, fun x hx => hd x (o ▸ hx), o, f⟩

/-- **C44** (assignment): the same for assignment to an existing object `d`, whose old history is dropped; the new elements lie in
unused memory or in the memory of the old ones. -/
theorem C44_assign {h : Heap} {b d : HBoard} {B D : Board} (hr : Rep h b B) (hd : Rep h d D) (hap : Apart b d) {as : List Addr}
    (hlen : as.length = b.hist.length) (hn : as.Nodup) (hfree : ∀ x ∈ as, h x = none ∨ x ∈ d.hist.map Entry.addr) :
    ∃ h' d', assign h d b as = some (h', d') ∧ Rep h' d' B ∧ Rep h' b B ∧ Apart d' b ∧ d'.own = d.start :: as ∧
      ∀ x, x ∉ d.own → x ∉ as → h' x = h x := by
  obtain ⟨g, hg⟩ : ∃ x, x = freeAll h (d.hist.map Entry.addr) := ⟨_, rfl⟩
  have hgf : ∀ x, x ∉ d.hist.map Entry.addr → g x = h x := by
    intro x hx
    rw [hg]
    unfold freeAll
    rw [if_neg hx]
  have hrg : Rep g b B := hr.frame fun a ha => hgf a fun hx => hap a ha (List.mem_cons_of_mem _ hx)
  have hdis : ∀ x ∈ d.start :: as, x ∉ b.own := by
    intro x hx ho
    rcases List.mem_cons.mp hx with rfl | hx
    · exact hap _ ho (List.mem_cons_self ..)
    · rcases hfree x hx with h1 | h1
      · obtain ⟨r, e, -⟩ := hr.alloc x ho
        rw [h1] at e
        cases e
      · exact hap _ ho (List.mem_cons_of_mem _ h1)
  have hnd : (d.start :: as).Nodup := by
    rw [List.nodup_cons]
    refine ⟨fun hx => ?_, hn⟩
    rcases hfree _ hx with h1 | h1
    · obtain ⟨r, e, -⟩ := hd.alloc d.start (List.mem_cons_self ..)
      rw [h1] at e
      cases e
    · have := hd.nodup
      unfold HBoard.own at this
      exact (List.nodup_cons.mp this).1 h1
  obtain ⟨h', d', e, r, o, f⟩ := hrg.copyTo hlen hnd hdis
  refine ⟨h', d', by unfold assign; rw [← hg]; exact e, r, hrg.frame fun a ha => f a fun hx => hdis a hx ha,
    fun x hx => hdis x (o ▸ hx), o, fun x hx hxa => ?_⟩
  unfold HBoard.own at hx
  rw [List.mem_cons, not_or] at hx
  rw [f x (by rw [List.mem_cons, not_or]; exact ⟨hx.1, hxa⟩), hgf x hx.2]

/-- Operations on two objects in any order; new records are put where nothing is allocated. -/
inductive Steps (Z : Zobrist) : Heap → HBoard → HBoard → List Op → List Op → Heap → HBoard → HBoard → Prop
  | done (h : Heap) (b c : HBoard) : Steps Z h b c [] [] h b c
  | first {h h' h2 : Heap} {b b' b2 c c2 : HBoard} {a : Addr} {o : Op} {os os' : List Op} (free : h a = none)
      (run : Mem.step Z h b a o = some (h', b')) (rest : Steps Z h' b' c os os' h2 b2 c2) : Steps Z h b c (o :: os) os' h2 b2 c2
  | second {h h' h2 : Heap} {b b2 c c' c2 : HBoard} {a : Addr} {o : Op} {os os' : List Op} (free : h a = none)
      (run : Mem.step Z h c a o = some (h', c')) (rest : Steps Z h' b c' os os' h2 b2 c2) : Steps Z h b c os (o :: os') h2 b2 c2

theorem Rep.not_free {h : Heap} {b : HBoard} {B : Board} (hr : Rep h b B) {a : Addr} (ha : h a = none) : a ∉ b.own := by
  intro hx
  obtain ⟨r, e, -⟩ := hr.alloc a hx
  rw [ha] at e
  cases e

/-- **C44** (independence): however the operations on two objects without common records are interleaved, each object shows what
its own operations alone make of the board it showed. -/
theorem C44_independent (Z : Zobrist) {h h' : Heap} {b b' c c' : HBoard} {os os' : List Op} (hs : Steps Z h b c os os' h' b' c') :
    ∀ {B C : Board}, Rep h b B → Rep h c C → Apart b c →
    ∃ B' C', B.run Z os = some B' ∧ C.run Z os' = some C' ∧ Rep h' b' B' ∧ Rep h' c' C' ∧ Apart b' c' := by
  induction hs with
  | done h b c => exact fun hb hc ha => ⟨_, _, rfl, rfl, hb, hc, ha⟩
  | @first h h1 h2 b b1 b2 c c2 a o os os' free run rest ih =>
    intro B C hb hc ha
    obtain ⟨⟨B1, e, r⟩, -, o1, f⟩ := (C44_step hb Z (hb.not_free free) o).2 _ _ run
    have hca := hc.not_free free
    have hc1 : Rep h1 c C := hc.frame fun x hx => f x (fun hy => ha x hy hx) (fun hy => hca (hy ▸ hx))
    have hap : Apart b1 c := by
      intro x hx hy
      rcases o1 x hx with h1 | rfl
      · exact ha x h1 hy
      · exact hca hy
    obtain ⟨B', C', e1, e2, r1, r2, r3⟩ := ih r hc1 hap
    refine ⟨B', C', ?_, e2, r1, r2, r3⟩
    show (B.step Z o).bind _ = _
    rw [e]
    exact e1
  | @second h h1 h2 b b2 c c1 c2 a o os os' free run rest ih =>
    intro B C hb hc ha
    obtain ⟨⟨C1, e, r⟩, -, o1, f⟩ := (C44_step hc Z (hc.not_free free) o).2 _ _ run
    have hba := hb.not_free free
    have hb1 : Rep h1 b B := hb.frame fun x hx => f x (fun hy => ha x hx hy) (fun hy => hba (hy ▸ hx))
    have hap : Apart b c1 := by
      intro x hx hy
      rcases o1 x hy with h1 | rfl
      · exact ha x hx h1
      · exact hba hx
    obtain ⟨B', C', e1, e2, r1, r2, r3⟩ := ih hb1 r hap
    refine ⟨B', C', e1, ?_, r1, r2, r3⟩
    show (C.step Z o).bind _ = _
    rw [e]
    exact e2

/-! ### C51 -/

/-- **C51** fails: when `set_position` rejects its text while the board has a move on its history, the record of the current
state is freed but still used: `is_check` and every push read freed memory. -/
theorem C51_fails {h : Heap} {b : HBoard} {B : Board} (hr : Rep h b B) (hm : moveAddrs b.hist ≠ []) :
    let r := setPositionThrow h b
    r.1 r.2.st = none ∧ isCheck r.1 r.2 = none ∧ ∀ Z a m, push Z r.1 r.2 m a = none := by
  have h1 : (setPositionThrow h b).1 (setPositionThrow h b).2.st = none := by
    obtain ⟨x, l, e⟩ := List.exists_cons_of_ne_nil hm
    have hst := hr.st
    unfold HBoard.chain at hst
    rw [e] at hst
    have hx : x = b.st := Option.some.inj hst
    have : b.st ∈ b.hist.map Entry.addr := moveAddrs_sub _ _ (by rw [e, hx]; exact List.mem_cons_self ..)
    show (if b.st ∈ b.hist.map Entry.addr then none else h b.st) = none
    rw [if_pos this]
  refine ⟨h1, by unfold isCheck; rw [h1]; rfl, fun Z a m => ?_⟩
  unfold push
  rw [h1]

/-- **C51** (partial: no move on the history): after the error the board shows the same position with an empty history. -/
theorem C51_empty_partial {h : Heap} {b : HBoard} {B : Board} (hr : Rep h b B) (hm : moveAddrs b.hist = []) :
    Rep (setPositionThrow h b).1 (setPositionThrow h b).2 ⟨B.pos, []⟩ := by
  have hst := hr.st
  have hlk := hr.links
  unfold HBoard.chain at hst hlk
  rw [hm] at hst hlk
  have hn := hr.nodup
  unfold HBoard.own at hn
  rw [List.nodup_cons] at hn
  refine ⟨hr.body, by show [b.start].Nodup; simp, hst, ?_, trivial⟩
  refine Links.frame hlk fun x (hx : x ∈ [] ++ [b.start]) => ?_
  rw [List.nil_append, List.mem_singleton] at hx
  subst hx
  show (if b.start ∈ b.hist.map Entry.addr then none else h b.start) = h b.start
  rw [if_neg hn.1]

/-! ### Examples -/

/-- A freshly set-up board object. -/
theorem rep_fresh (p : Position) (hp : p.prev = []) (s : Addr) :
    Rep (upd (fun _ => none) s (some ⟨p.st, none⟩)) ⟨bodyOf p, s, s, []⟩ ⟨p, []⟩ := by
  refine ⟨rfl, by show [s].Nodup; simp, rfl, ?_, trivial⟩
  show Links _ [s] (p.st :: p.prev)
  rw [hp]
  exact upd_eq

/-- After one push from a freshly set-up board. -/
theorem rep_pushed (Z : Zobrist) (p : Position) (hp : p.prev = []) (m : Move) (hm : doMoveDefined m = true) :
    ∃ h b B, Mem.push Z (upd (fun _ => none) 0 (some ⟨p.st, none⟩)) ⟨bodyOf p, 0, 0, []⟩ m 1 = some (h, b) ∧ Rep h b B ∧
      B.hist = [.move m] ∧ moveAddrs b.hist ≠ [] ∧ b.hist.length = 1 ∧ ∀ x : Nat, 2 ≤ x → h x = none := by
  have h0 := rep_fresh p hp 0
  have hs := h0.push Z m (a := 1) (by simp [HBoard.own])
  unfold StepOK Board.push at hs
  obtain ⟨q, hq⟩ : ∃ q, doMove Z p m = some q := by unfold doMove; rw [if_pos hm]; exact ⟨_, rfl⟩
  simp only [hq, Option.map_some] at hs
  obtain ⟨h, b, e, hr, -, -, hf⟩ := hs
  have hl : b.hist = [.move m 1] := by
    unfold Mem.push at e
    split at e
    · cases e
    · simp only at e
      split at e
      · cases e
      · cases e; rfl
  refine ⟨h, b, _, e, hr, rfl, by rw [hl]; simp [moveAddrs], by rw [hl]; rfl, fun x hx => ?_⟩
  have h0 : x ≠ (0 : Nat) := by omega
  have h1 : x ≠ (1 : Nat) := by omega
  rw [hf x (by simpa [HBoard.own] using h0) h1]
  exact upd_ne h0

/-- The hypotheses of C44 and C51 hold after P7g-7f from the starting position, and the copy has its own records. -/
example : ∃ h b B, Rep h b B ∧ B.hist ≠ [] ∧ moveAddrs b.hist ≠ [] ∧
    ∃ h' b', copyTo h b 2 [3] = some (h', b') ∧ Rep h' b' B ∧ Rep h' b B ∧ Apart b' b := by
  obtain ⟨h, b, B, -, hr, hB, hm, hl, hf⟩ := rep_pushed zeroKeys (startModel zeroKeys) rfl (makeMove PT.Pawn 60 59) (by decide)
  obtain ⟨h', b', e, r1, r2, r3, -⟩ := C44_copy hr (start := 2) (as := [3]) (by rw [hl]; rfl) (by decide)
    (by intro x hx; apply hf; exact (by decide : ∀ x ∈ [2, 3], 2 ≤ x) x hx)
  exact ⟨h, b, B, hr, by rw [hB]; simp, hm, h', b', e, r1, r2, r3⟩

end Mem
end Verif
