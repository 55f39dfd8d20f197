import Verif.Model.Heap
import Mathlib.Data.List.Nodup
import Mathlib.Data.List.Zip

/-!
# Heap boards: what they show, operations and copying
-/

namespace Verif
namespace Mem
open Position

/-! ### What a heap board stands for -/

/-- The records at `l` hold the states `ss` and each points to the next. -/
def Links (h : Heap) : List Addr → List StateInfo → Prop
  | [a], [s] => h a = some ⟨s, none⟩
  | a :: b :: l, s :: ss => h a = some ⟨s, some b⟩ ∧ Links h (b :: l) ss
  | _, _ => False

/-- The addresses of the records of moves, newest first. -/
def moveAddrs : List Entry → List Addr
  | [] => []
  | .move _ a :: l => a :: moveAddrs l
  | .pass _ :: l => moveAddrs l

/-- The entries are the same moves and passes, and the record of a pass holds its backup. -/
def Matches (h : Heap) : List Entry → List HistEntry → Prop
  | [], [] => True
  | .move m _ :: l, .move m' :: l' => m = m' ∧ Matches h l l'
  | .pass a :: l, .pass k :: l' => h a = some (backupRec k) ∧ Matches h l l'
  | _, _ => False

/-- The records from the current state to the start state. -/
def HBoard.chain (b : HBoard) : List Addr := moveAddrs b.hist ++ [b.start]

/-- The object `b` in the heap `h` shows the board `B`: position, all earlier states, and history. -/
structure Rep (h : Heap) (b : HBoard) (B : Board) : Prop where
  body : b.body = bodyOf B.pos
  nodup : b.own.Nodup
  st : b.chain.head? = some b.st
  links : Links h b.chain (B.pos.st :: B.pos.prev)
  entries : Matches h b.hist B.hist

/-! ### Lists of records -/

theorem moveAddrs_sub : ∀ l : List Entry, ∀ a ∈ moveAddrs l, a ∈ l.map Entry.addr
  | [], a, h => h
  | .move m x :: l, a, h => by
    rcases List.mem_cons.mp h with rfl | h
    · exact List.mem_cons_self ..
    · exact List.mem_cons_of_mem _ (moveAddrs_sub l a h)
  | .pass x :: l, a, h => List.mem_cons_of_mem _ (moveAddrs_sub l a h)

theorem chain_sub (b : HBoard) : ∀ a ∈ b.chain, a ∈ b.own := by
  intro a h
  rcases List.mem_append.mp h with h | h
  · exact List.mem_cons_of_mem _ (moveAddrs_sub _ a h)
  · rw [List.mem_singleton] at h
    rw [h]
    exact List.mem_cons_self ..

theorem Links.frame {h h' : Heap} : ∀ {l : List Addr} {ss : List StateInfo}, Links h l ss → (∀ a ∈ l, h' a = h a) → Links h' l ss
  | [], _, hl, _ => by simp [Links] at hl
  | [a], [], hl, _ => by simp [Links] at hl
  | [a], [s], hl, hf => by
    simp only [Links] at hl ⊢
    rw [hf a (List.mem_cons_self ..)]; exact hl
  | [a], s :: t :: ss, hl, _ => by simp [Links] at hl
  | a :: b :: l, [], hl, _ => by simp [Links] at hl
  | a :: b :: l, s :: ss, hl, hf => by
    simp only [Links] at hl ⊢
    exact ⟨by rw [hf a (List.mem_cons_self ..)]; exact hl.1, hl.2.frame fun x hx => hf x (List.mem_cons_of_mem _ hx)⟩

theorem Matches.frame {h h' : Heap} : ∀ {l : List Entry} {l' : List HistEntry}, Matches h l l' → (∀ a ∈ l.map Entry.addr, h' a = h a) →
    Matches h' l l'
  | [], [], _, _ => trivial
  | [], _ :: _, hm, _ => by simp [Matches] at hm
  | .move m a :: l, [], hm, _ => by simp [Matches] at hm
  | .pass a :: l, [], hm, _ => by simp [Matches] at hm
  | .move m a :: l, .move m' :: l', hm, hf => by
    simp only [Matches] at hm ⊢
    exact ⟨hm.1, hm.2.frame fun x hx => hf x (List.mem_cons_of_mem _ hx)⟩
  | .pass a :: l, .pass k :: l', hm, hf => by
    simp only [Matches] at hm ⊢
    exact ⟨by rw [hf a (List.mem_cons_self ..)]; exact hm.1, hm.2.frame fun x hx => hf x (List.mem_cons_of_mem _ hx)⟩
  | .move m a :: l, .pass k :: l', hm, _ => by simp [Matches] at hm
  | .pass a :: l, .move m :: l', hm, _ => by simp [Matches] at hm

theorem Links.cons_inv {h : Heap} {a : Addr} {l : List Addr} {s : StateInfo} {ss : List StateInfo} (hl : Links h (a :: l) (s :: ss)) :
    h a = some ⟨s, l.head?⟩ ∧ (l = [] ∧ ss = [] ∨ Links h l ss) := by
  cases l with
  | nil =>
    cases ss with
    | nil => exact ⟨hl, .inl ⟨rfl, rfl⟩⟩
    | cons t ts => simp [Links] at hl
  | cons b l =>
    simp only [Links] at hl
    exact ⟨hl.1, .inr hl.2⟩

theorem Links.set {h : Heap} {a : Addr} {l : List Addr} {s s' : StateInfo} {ss : List StateInfo} (hl : Links h (a :: l) (s :: ss))
    (ha : a ∉ l) : Links (upd h a (some ⟨s', l.head?⟩)) (a :: l) (s' :: ss) := by
  have hf : ∀ x ∈ l, upd h a (some ⟨s', l.head?⟩) x = h x := by
    intro x hx
    unfold upd
    rw [if_neg (by rintro rfl; exact ha hx)]
  cases l with
  | nil =>
    cases ss with
    | nil => simp [Links, upd]
    | cons t ts => simp [Links] at hl
  | cons b l =>
    simp only [Links] at hl ⊢
    exact ⟨by simp [upd], hl.2.frame hf⟩

theorem upd_ne {h : Heap} {a x : Addr} {r : Option Rec} (hx : x ≠ a) : upd h a r x = h x := by unfold upd; rw [if_neg hx]
theorem upd_eq {h : Heap} {a : Addr} {r : Option Rec} : upd h a r a = r := by unfold upd; rw [if_pos rfl]

/-- Boards stay what they show as long as their own records are untouched. -/
theorem Rep.frame {h h' : Heap} {b : HBoard} {B : Board} (hr : Rep h b B) (hf : ∀ a ∈ b.own, h' a = h a) : Rep h' b B where
  body := hr.body
  nodup := hr.nodup
  st := hr.st
  links := hr.links.frame fun a ha => hf a (chain_sub b a ha)
  entries := hr.entries.frame fun a ha => hf a (List.mem_cons_of_mem _ ha)

theorem Links.alloc {h : Heap} : ∀ {l : List Addr} {ss : List StateInfo}, Links h l ss → ∀ a ∈ l, ∃ r, h a = some r ∧ ∀ b, r.previous = some b → b ∈ l
  | [], _, hl, _, _ => by simp [Links] at hl
  | x :: l, [], hl, _, _ => by cases l <;> simp [Links] at hl
  | x :: l, s :: ss, hl, a, ha => by
    obtain ⟨h1, h2⟩ := hl.cons_inv
    rcases List.mem_cons.mp ha with rfl | ha
    · refine ⟨_, h1, fun b hb => List.mem_cons_of_mem _ ?_⟩
      exact List.mem_of_mem_head? hb
    · rcases h2 with ⟨rfl, -⟩ | h2
      · cases ha
      · obtain ⟨r, hr, hp⟩ := h2.alloc a ha
        exact ⟨r, hr, fun b hb => List.mem_cons_of_mem _ (hp b hb)⟩

theorem Matches.alloc {h : Heap} : ∀ {l : List Entry} {l' : List HistEntry}, Matches h l l' → ∀ a ∈ l.map Entry.addr,
    a ∈ moveAddrs l ∨ ∃ k, h a = some (backupRec k)
  | [], _, _, _, ha => by cases ha
  | .move m x :: l, [], hm, _, _ => by simp [Matches] at hm
  | .pass x :: l, [], hm, _, _ => by simp [Matches] at hm
  | .move m x :: l, .move m' :: l', hm, a, ha => by
    simp only [Matches] at hm
    rcases List.mem_cons.mp ha with rfl | ha
    · exact .inl (List.mem_cons_self ..)
    · rcases hm.2.alloc a ha with h | h
      · exact .inl (List.mem_cons_of_mem _ h)
      · exact .inr h
  | .pass x :: l, .pass k :: l', hm, a, ha => by
    simp only [Matches] at hm
    rcases List.mem_cons.mp ha with rfl | ha
    · exact .inr ⟨k, hm.1⟩
    · exact hm.2.alloc a ha
  | .move m a :: l, .pass k :: l', hm, _, _ => by simp [Matches] at hm
  | .pass a :: l, .move m :: l', hm, _, _ => by simp [Matches] at hm

/-- All records of a board exist, and their pointers stay inside the board. -/
theorem Rep.alloc {h : Heap} {b : HBoard} {B : Board} (hr : Rep h b B) :
    ∀ a ∈ b.own, ∃ r, h a = some r ∧ ∀ x, r.previous = some x → x ∈ b.own := by
  have hc : ∀ a ∈ b.chain, ∃ r, h a = some r ∧ ∀ x, r.previous = some x → x ∈ b.own := by
    intro a ha
    obtain ⟨r, e, hp⟩ := hr.links.alloc a ha
    exact ⟨r, e, fun x hx => chain_sub b x (hp x hx)⟩
  intro a ha
  rcases List.mem_cons.mp ha with rfl | ha
  · exact hc _ (by unfold HBoard.chain; simp)
  · rcases hr.entries.alloc a ha with h1 | ⟨k, h1⟩
    · exact hc a (List.mem_append_left _ h1)
    · exact ⟨_, h1, fun x hx => by simp [backupRec] at hx⟩

/-! ### Operations -/

theorem see_body (p : Position) : (bodyOf p).see p.st p.prev = p := rfl

theorem doMove_prev (Z : Zobrist) (b : Body) (s : StateInfo) (prev : List StateInfo) (m : Move) :
    doMove Z (b.see s prev) m = (doMove Z (b.see s []) m).map fun q => { q with prev := s :: prev } := by
  unfold doMove
  by_cases h : doMoveDefined m
  · rw [if_pos h, if_pos h, Option.map_some]
    congr 1
    have hg : moveGivesCheck (b.see s prev) m = moveGivesCheck (b.see s []) m := rfl
    rw [hg]
    split <;> rfl
  · rw [if_neg h, if_neg h]; rfl

theorem undoMove_prev (b : Body) (s x : StateInfo) (prev : List StateInfo) (m : Move) :
    undoMove (b.see s (x :: prev)) m = (undoMove (b.see s [s]) m).map fun q => { q with st := x, prev := prev } := by
  unfold undoMove Body.see
  simp only
  by_cases h : doMoveDefined m
  · rw [if_pos h, if_pos h, Option.map_some]
    congr 1
    split <;> rfl
  · rw [if_neg h, if_neg h]; rfl

/-- The result of an operation on a heap board, given what the list model does. -/
def StepOK (h : Heap) (b : HBoard) (a : Addr) (r : Option (Heap × HBoard)) (R : Option Board) : Prop :=
  match R with
  | none => r = none
  | some B' => ∃ h' b', r = some (h', b') ∧ Rep h' b' B' ∧ b'.start = b.start ∧ (∀ x ∈ b'.own, x ∈ b.own ∨ x = a) ∧
      ∀ x, x ∉ b.own → x ≠ a → h' x = h x

theorem chain_cons {b : HBoard} {x : Addr} (h : b.chain.head? = some x) : ∃ l, b.chain = x :: l := by
  cases hc : b.chain with
  | nil => rw [hc] at h; cases h
  | cons y l => rw [hc] at h; cases h; exact ⟨l, rfl⟩

theorem chain_nodup {b : HBoard} (hn : b.own.Nodup) : b.chain.Nodup := by
  have h1 : ∀ l : List Entry, (l.map Entry.addr).Nodup → (moveAddrs l).Nodup := by
    intro l
    induction l with
    | nil => exact fun h => h
    | cons e l ih =>
      intro h
      rw [List.map_cons, List.nodup_cons] at h
      cases e with
      | move m a => exact List.nodup_cons.mpr ⟨fun hm => h.1 (moveAddrs_sub l a hm), ih h.2⟩
      | pass a => exact ih h.2
  unfold HBoard.own at hn
  rw [List.nodup_cons] at hn
  unfold HBoard.chain
  rw [List.nodup_append]
  refine ⟨h1 _ hn.2, List.nodup_singleton _, ?_⟩
  intro x hx y hy e
  rw [List.mem_singleton] at hy
  subst hy e
  exact hn.1 (moveAddrs_sub _ _ hx)

theorem Rep.read {h : Heap} {b : HBoard} {B : Board} (hr : Rep h b B) :
    ∃ l, b.chain = b.st :: l ∧ h b.st = some ⟨B.pos.st, l.head?⟩ ∧ b.st ∉ l ∧ (l = [] ∧ B.pos.prev = [] ∨ Links h l B.pos.prev) := by
  obtain ⟨l, hl⟩ := chain_cons hr.st
  have := hr.links
  rw [hl] at this
  have hn := chain_nodup hr.nodup
  rw [hl, List.nodup_cons] at hn
  exact ⟨l, hl, this.cons_inv.1, hn.1, this.cons_inv.2⟩

theorem Rep.push {h : Heap} {b : HBoard} {B : Board} (hr : Rep h b B) (Z : Zobrist) (m : Move) {a : Addr} (ha : a ∉ b.own) :
    StepOK h b a (push Z h b m a) (B.push Z m) := by
  obtain ⟨l, hl, e, -, -⟩ := hr.read
  have hB : B.pos = b.body.see B.pos.st B.pos.prev := by rw [hr.body]; rfl
  unfold Mem.push Board.push StepOK
  rw [e]
  simp only
  rw [show doMove Z B.pos m = _ from (congrArg (fun p => doMove Z p m) hB).trans (doMove_prev Z b.body B.pos.st B.pos.prev m)]
  cases hq : doMove Z (b.body.see B.pos.st []) m with
  | none => rfl
  | some q =>
    simp only [Option.map_some]
    have hne : ∀ x ∈ b.own, x ≠ a := fun x hx e => ha (e ▸ hx)
    refine ⟨_, _, rfl, ⟨rfl, ?_, rfl, ?_, ?_⟩, rfl, ?_, ?_⟩
    · have : (⟨bodyOf q, b.start, a, .move m a :: b.hist⟩ : HBoard).own = b.start :: a :: b.hist.map Entry.addr := rfl
      rw [this]
      have hn := hr.nodup
      unfold HBoard.own at hn ha
      rw [List.nodup_cons] at hn
      rw [List.mem_cons, not_or] at ha
      rw [List.nodup_cons, List.nodup_cons, List.mem_cons, not_or]
      exact ⟨⟨fun e => ha.1 e.symm, hn.1⟩, ha.2, hn.2⟩
    · show Links _ (a :: b.chain) (q.st :: B.pos.st :: B.pos.prev)
      have hlk := hr.links.frame (h' := upd h a (some ⟨q.st, some b.st⟩)) fun x hx => upd_ne (hne x (chain_sub b x hx))
      rw [hl] at hlk ⊢
      exact ⟨upd_eq, hlk⟩
    · exact ⟨rfl, hr.entries.frame fun x hx => upd_ne (hne x (List.mem_cons_of_mem _ hx))⟩
    · intro x hx
      rcases List.mem_cons.mp hx with rfl | hx
      · exact .inl (List.mem_cons_self ..)
      · rcases List.mem_cons.mp hx with rfl | hx
        · exact .inr rfl
        · exact .inl (List.mem_cons_of_mem _ hx)
    · intro x _ hx
      exact upd_ne hx

theorem Rep.pop {h : Heap} {b : HBoard} {B : Board} (hr : Rep h b B) (a : Addr) : StepOK h b a (pop h b) B.pop := by
  obtain ⟨body, start, st, hist⟩ := b
  obtain ⟨pos, bh⟩ := B
  obtain ⟨l, hl, e, hnl, hlk⟩ := hr.read
  have hB : pos = body.see pos.st pos.prev := by rw [show body = _ from hr.body]; rfl
  have hent := hr.entries
  unfold Mem.pop Board.pop StepOK
  simp only at *
  cases hist with
  | nil => cases bh with
    | nil => simp
    | cons x l => simp [Matches] at hent
  | cons x hist =>
    cases x with
    | pass x =>
      cases bh with
      | nil => simp [Matches] at hent
      | cons y l => cases y with
        | move m => simp [Matches] at hent
        | pass k => simp
    | move m x =>
      cases bh with
      | nil => simp [Matches] at hent
      | cons y bh =>
        cases y with
        | pass k => simp [Matches] at hent
        | move m' =>
          obtain ⟨rfl, hent⟩ := hent
          have hx : st = x := (Option.some.inj hr.st).symm
          subst hx
          have hl2 : l = moveAddrs hist ++ [start] := by
            have : (⟨body, start, st, .move m st :: hist⟩ : HBoard).chain = st :: (moveAddrs hist ++ [start]) := rfl
            rw [this] at hl
            exact (List.cons.inj hl).2.symm
          have hne : l ≠ [] := by rw [hl2]; simp
          obtain ⟨y, l', hly⟩ := List.exists_cons_of_ne_nil hne
          have hlk : Links h l pos.prev := hlk.resolve_left fun x => hne x.1
          simp only [e]
          rw [hly, List.head?_cons]
          cases hpr : pos.prev with
          | nil => rw [hly, hpr] at hlk; cases l' <;> simp [Links] at hlk
          | cons s ss =>
            rw [show undoMove pos m = _ from (congrArg (fun p => undoMove p m) (hB.trans (by rw [hpr]))).trans
              (undoMove_prev body pos.st s ss m)]
            simp only
            cases hq : undoMove (body.see pos.st [pos.st]) m with
            | none => rfl
            | some q =>
              simp only [Option.map_some]
              have hn := hr.nodup
              have ho : (⟨body, start, st, .move m st :: hist⟩ : HBoard).own = start :: st :: hist.map Entry.addr := rfl
              rw [ho, List.nodup_cons, List.nodup_cons, List.mem_cons, not_or] at hn
              refine ⟨_, _, rfl, ⟨rfl, ?_, ?_, ?_, ?_⟩, rfl, ?_, ?_⟩
              · exact List.nodup_cons.mpr ⟨hn.1.2, hn.2.2⟩
              · show (moveAddrs hist ++ [start]).head? = some y
                rw [← hl2, hly]; rfl
              · show Links _ (moveAddrs hist ++ [start]) (s :: ss)
                rw [← hl2, ← hpr]
                refine hlk.frame fun z hz => upd_ne ?_
                rintro rfl
                exact hnl hz
              · refine hent.frame fun z hz => upd_ne ?_
                rintro rfl
                exact hn.2.1 hz
              · intro z hz
                rw [ho]
                rcases List.mem_cons.mp hz with rfl | hz
                · exact .inl (List.mem_cons_self ..)
                · exact .inl (List.mem_cons_of_mem _ (List.mem_cons_of_mem _ hz))
              · intro z hz _
                apply upd_ne
                rintro rfl
                apply hz
                rw [ho]
                simp

/-- Changing the record of a move does not change the backups. -/
theorem Matches.frameMove {h h' : Heap} {s : Addr} : ∀ (L : List Entry) (L' : List HistEntry), Matches h L L' → (L.map Entry.addr).Nodup →
    (∀ x ∈ L.map Entry.addr, x ≠ s → h' x = h x) → s ∉ L.map Entry.addr ∨ s ∈ moveAddrs L → Matches h' L L'
  | [], [], _, _, _, _ => trivial
  | [], _ :: _, hm, _, _, _ => by simp [Matches] at hm
  | .move _ _ :: _, [], hm, _, _, _ => by simp [Matches] at hm
  | .pass _ :: _, [], hm, _, _, _ => by simp [Matches] at hm
  | .move _ _ :: _, .pass _ :: _, hm, _, _, _ => by simp [Matches] at hm
  | .pass _ :: _, .move _ :: _, hm, _, _, _ => by simp [Matches] at hm
  | .move m x :: L, .move m' :: L', hm, hn, hx, hs => by
    rw [List.map_cons, List.nodup_cons] at hn
    refine ⟨hm.1, hm.2.frameMove L L' hn.2 (fun z hz => hx z (List.mem_cons_of_mem _ hz)) ?_⟩
    rcases hs with hs | hs
    · exact .inl fun z => hs (List.mem_cons_of_mem _ z)
    · rcases List.mem_cons.mp hs with h1 | h1
      · rw [h1]; exact .inl hn.1
      · exact .inr h1
  | .pass x :: L, .pass k :: L', hm, hn, hx, hs => by
    rw [List.map_cons, List.nodup_cons] at hn
    have h2 : s ∉ List.map Entry.addr L ∨ s ∈ moveAddrs L := by
      rcases hs with hs | hs
      · exact .inl fun z => hs (List.mem_cons_of_mem _ z)
      · exact .inr hs
    have h3 : x ≠ s := by
      rintro h3
      rcases hs with hs | hs
      · apply hs; rw [← h3]; exact List.mem_cons_self ..
      · apply hn.1
        show x ∈ _
        rw [h3]
        exact moveAddrs_sub L _ hs
    refine ⟨?_, hm.2.frameMove L L' hn.2 (fun z hz => hx z (List.mem_cons_of_mem _ hz)) h2⟩
    rw [hx x (List.mem_cons_self ..) h3]
    exact hm.1

theorem Matches.frameSt {h h' : Heap} {b : HBoard} {B : Board} (hm : Matches h b.hist B.hist) (hr : Rep h b B)
    (hf : ∀ x ∈ b.hist.map Entry.addr, x ≠ b.st → h' x = h x) : Matches h' b.hist B.hist := by
  have hn := hr.nodup
  unfold HBoard.own at hn
  rw [List.nodup_cons] at hn
  refine hm.frameMove _ _ hn.2 hf ?_
  obtain ⟨l, hl, -⟩ := hr.read
  have : b.st ∈ b.chain := by rw [hl]; exact List.mem_cons_self ..
  rcases List.mem_append.mp this with h1 | h1
  · exact .inr h1
  · rw [List.mem_singleton] at h1
    rw [h1]
    exact .inl hn.1

theorem Rep.pushPass {h : Heap} {b : HBoard} {B : Board} (hr : Rep h b B) {a : Addr} (ha : a ∉ b.own) :
    StepOK h b a (pushPass h b a) B.pushPass := by
  obtain ⟨l, hl, e, hnl, -⟩ := hr.read
  have hB : B.pos = b.body.see B.pos.st B.pos.prev := by rw [hr.body]; rfl
  have hst : b.st ∈ b.own := chain_sub b _ (by rw [hl]; exact List.mem_cons_self ..)
  have hne : ∀ x ∈ b.own, x ≠ a := fun x hx e => ha (e ▸ hx)
  have hc : (b.body.see B.pos.st []).inCheck = B.pos.inCheck := rfl
  have hk : (doNull (b.body.see B.pos.st [])).2 = (doNull B.pos).2 := by rw [hB]; rfl
  have hs : (doNull (b.body.see B.pos.st [])).1.st = (doNull B.pos).1.st := by rw [hB]; rfl
  have hb : bodyOf (doNull (b.body.see B.pos.st [])).1 = bodyOf (doNull B.pos).1 := by rw [hB]; rfl
  have hp : (doNull B.pos).1.prev = B.pos.prev := rfl
  unfold Mem.pushPass Board.pushPass StepOK
  rw [e]
  simp only [hc, hk, hs, hb]
  by_cases hq : B.pos.inCheck
  · rw [if_pos hq, if_pos hq]
  · rw [if_neg hq, if_neg hq]
    simp only
    refine ⟨_, _, rfl, ⟨rfl, ?_, hr.st, ?_, ?_⟩, rfl, ?_, ?_⟩
    · have hn := hr.nodup
      unfold HBoard.own at hn ha ⊢
      rw [List.nodup_cons] at hn
      rw [List.mem_cons, not_or] at ha
      simp only [List.map_cons, Entry.addr]
      rw [List.nodup_cons, List.nodup_cons, List.mem_cons, not_or]
      exact ⟨⟨fun e => ha.1 e.symm, hn.1⟩, ha.2, hn.2⟩
    · show Links _ b.chain ((doNull B.pos).1.st :: B.pos.prev)
      have hlk := hr.links.frame (h' := upd h a (some (backupRec (doNull B.pos).2))) fun x hx => upd_ne (hne x (chain_sub b x hx))
      rw [hl] at hlk ⊢
      exact hlk.set hnl
    · refine ⟨?_, ?_⟩
      · rw [upd_ne (hne _ hst).symm, upd_eq]
      · refine hr.entries.frameSt hr fun x hx hxs => ?_
        rw [upd_ne hxs, upd_ne (hne x (List.mem_cons_of_mem _ hx))]
    · intro x hx
      rcases List.mem_cons.mp hx with rfl | hx
      · exact .inl (List.mem_cons_self ..)
      · rcases List.mem_cons.mp hx with rfl | hx
        · exact .inr rfl
        · exact .inl (List.mem_cons_of_mem _ hx)
    · intro x hx hxa
      rw [upd_ne (by rintro rfl; exact hx hst), upd_ne hxa]

theorem backupOf_rec (k : NullBackup) : backupOf (backupRec k) = k := rfl

theorem Rep.popPass {h : Heap} {b : HBoard} {B : Board} (hr : Rep h b B) (a : Addr) : StepOK h b a (popPass h b) B.popPass := by
  obtain ⟨body, start, st, hist⟩ := b
  obtain ⟨pos, bh⟩ := B
  obtain ⟨l, hl, e, hnl, -⟩ := hr.read
  have hB : pos = body.see pos.st pos.prev := by rw [show body = _ from hr.body]; rfl
  have hent := hr.entries
  unfold Mem.popPass Board.popPass StepOK
  simp only at *
  cases hist with
  | nil => cases bh with
    | nil => simp
    | cons x l => simp [Matches] at hent
  | cons x hist =>
    cases x with
    | move m x =>
      cases bh with
      | nil => simp [Matches] at hent
      | cons y l => cases y with
        | pass k => simp [Matches] at hent
        | move m => simp
    | pass x =>
      cases bh with
      | nil => simp [Matches] at hent
      | cons y bh =>
        cases y with
        | move k => simp [Matches] at hent
        | pass k =>
          obtain ⟨hk, hent⟩ := hent
          have hn := hr.nodup
          have ho : (⟨body, start, st, .pass x :: hist⟩ : HBoard).own = start :: x :: hist.map Entry.addr := rfl
          have hch : (⟨body, start, st, .pass x :: hist⟩ : HBoard).chain = moveAddrs hist ++ [start] := rfl
          rw [ho, List.nodup_cons, List.nodup_cons, List.mem_cons, not_or] at hn
          have hxc : ∀ z ∈ moveAddrs hist ++ [start], z ≠ x := by
            rintro z hz rfl
            rcases List.mem_append.mp hz with h1 | h1
            · exact hn.2.1 (moveAddrs_sub _ _ h1)
            · rw [List.mem_singleton] at h1
              exact hn.1.1 h1.symm
          have hsx : st ≠ x := hxc st (by rw [← hch, hl]; exact List.mem_cons_self ..)
          simp only [e, hk, backupOf_rec]
          have hb : bodyOf (undoNull (body.see pos.st []) k) = bodyOf (undoNull pos k) := by rw [hB]; rfl
          have hs : (undoNull (body.see pos.st []) k).st = (undoNull pos k).st := by rw [hB]; rfl
          simp only [hb, hs]
          have hfr : Matches (upd (upd h st (some ⟨(undoNull pos k).st, l.head?⟩)) x none) hist bh := by
            refine (Matches.frame (h := upd h st (some ⟨(undoNull pos k).st, l.head?⟩)) ?_ fun z hz => upd_ne ?_)
            · refine hent.frameMove (s := st) hist bh hn.2.2 (fun z _ hz => upd_ne hz) ?_
              have : st ∈ moveAddrs hist ++ [start] := by rw [← hch, hl]; exact List.mem_cons_self ..
              rcases List.mem_append.mp this with h1 | h1
              · exact .inr h1
              · rw [List.mem_singleton] at h1
                rw [h1]
                exact .inl hn.1.2
            · rintro rfl
              exact hn.2.1 hz
          refine ⟨_, _, rfl, ⟨rfl, ?_, hr.st, ?_, hfr⟩, rfl, ?_, ?_⟩
          · exact List.nodup_cons.mpr ⟨hn.1.2, hn.2.2⟩
          · show Links _ (moveAddrs hist ++ [start]) ((undoNull pos k).st :: pos.prev)
            have hlk := hr.links
            rw [hl] at hlk
            have := hlk.set (s' := (undoNull pos k).st) hnl
            rw [← hl, hch] at this
            exact this.frame fun z hz => upd_ne (hxc z hz)
          · intro z hz
            rw [ho]
            rcases List.mem_cons.mp hz with rfl | hz
            · exact .inl (List.mem_cons_self ..)
            · exact .inl (List.mem_cons_of_mem _ (List.mem_cons_of_mem _ hz))
          · intro z hz _
            rw [upd_ne, upd_ne]
            · rintro rfl
              exact hz (chain_sub _ _ (by rw [hl]; exact List.mem_cons_self ..))
            · rintro rfl
              apply hz
              rw [ho]
              simp

theorem Rep.step {h : Heap} {b : HBoard} {B : Board} (hr : Rep h b B) (Z : Zobrist) {a : Addr} (ha : a ∉ b.own) (op : Op) :
    StepOK h b a (Mem.step Z h b a op) (B.step Z op) := by
  cases op with
  | push m => exact hr.push Z m ha
  | pop => exact hr.pop a
  | pushPass => exact hr.pushPass ha
  | popPass => exact hr.popPass a

/-! ### Copying -/

theorem copyRecs_spec : ∀ (S D : List Addr) (h : Heap), S.length = D.length → D.Nodup → (∀ d ∈ D, d ∉ S) → (∀ s ∈ S, h s ≠ none) →
    ∃ h', copyRecs h S D = some h' ∧ (∀ x, x ∉ D → h' x = h x) ∧ ∀ p ∈ S.zip D, h' p.2 = h p.1
  | [], [], h, _, _, _, _ => ⟨h, rfl, fun _ _ => rfl, by simp⟩
  | [], _ :: _, _, hl, _, _, _ => by simp at hl
  | _ :: _, [], _, hl, _, _, _ => by simp at hl
  | s :: S, d :: D, h, hl, hn, hd, ha => by
    rw [List.nodup_cons] at hn
    have hds : d ∉ s :: S := hd d (List.mem_cons_self ..)
    obtain ⟨r, hr⟩ := Option.ne_none_iff_exists'.mp (ha s (List.mem_cons_self ..))
    have hS : ∀ x ∈ S, upd h d (some r) x = h x := by
      intro x hx
      apply upd_ne
      rintro rfl
      exact hds (List.mem_cons_of_mem _ hx)
    obtain ⟨h', e, h1, h2⟩ := copyRecs_spec S D (upd h d (some r)) (by simpa using hl) hn.2
      (fun x hx hs => hd x (List.mem_cons_of_mem _ hx) (List.mem_cons_of_mem _ hs))
      (fun x hx => by rw [hS x hx]; exact ha x (List.mem_cons_of_mem _ hx))
    refine ⟨h', by rw [copyRecs, hr]; exact e, fun x hx => ?_, fun p hp => ?_⟩
    · rw [List.mem_cons, not_or] at hx
      rw [h1 x hx.2, upd_ne hx.1]
    · rw [List.zip_cons_cons] at hp
      rcases List.mem_cons.mp hp with rfl | hp
      · show h' d = h s
        rw [h1 d hn.1, upd_eq, hr]
      · rw [h2 p hp, hS _ (List.of_mem_zip hp).1]

theorem relink_spec (m : List (Addr × Addr)) : ∀ (l : List (Addr × Addr)) (h : Heap), (l.map Prod.snd).Nodup →
    (∀ d ∈ l.map Prod.snd, d ∉ l.map Prod.fst) →
    (∀ p ∈ l, ∃ r t q, h p.1 = some r ∧ h p.2 = some t ∧ remapPtr m r.previous = some q) →
    ∃ h', relink m h l = some h' ∧ (∀ x, x ∉ l.map Prod.snd → h' x = h x) ∧
      ∀ p ∈ l, ∀ r t q, h p.1 = some r → h p.2 = some t → remapPtr m r.previous = some q → h' p.2 = some ⟨t.info, q⟩
  | [], h, _, _, _ => ⟨h, rfl, fun _ _ => rfl, by simp⟩
  | (s, d) :: l, h, hn, hd, ha => by
    rw [List.map_cons, List.nodup_cons] at hn
    have hds : d ∉ List.map Prod.fst ((s, d) :: l) := hd d (List.mem_cons_self ..)
    rw [List.map_cons, List.mem_cons, not_or] at hds
    obtain ⟨r, t, q, e1, e2, e3⟩ := ha (s, d) (List.mem_cons_self ..)
    have hfst : ∀ p ∈ l, upd h d (some ⟨t.info, q⟩) p.1 = h p.1 := by
      intro p hp
      apply upd_ne
      intro e
      exact hds.2 (by rw [← e]; exact List.mem_map_of_mem hp)
    have hsnd : ∀ p ∈ l, upd h d (some ⟨t.info, q⟩) p.2 = h p.2 := by
      intro p hp
      apply upd_ne
      intro e
      exact hn.1 (by show d ∈ _; rw [← e]; exact List.mem_map_of_mem hp)
    obtain ⟨h', e, h1, h2⟩ := relink_spec m l (upd h d (some ⟨t.info, q⟩)) hn.2
      (fun x hx hs => hd x (List.mem_cons_of_mem _ hx) (List.mem_cons_of_mem _ hs))
      (fun p hp => by rw [hfst p hp, hsnd p hp]; exact ha p (List.mem_cons_of_mem _ hp))
    refine ⟨h', ?_, fun x hx => ?_, fun p hp r' t' q' f1 f2 f3 => ?_⟩
    · rw [relink, show h s = some r from e1, show h d = some t from e2]
      simp only [e3]
      exact e
    · rw [List.map_cons, List.mem_cons, not_or] at hx
      rw [h1 x hx.2, upd_ne hx.1]
    · rcases List.mem_cons.mp hp with rfl | hp
      · have g1 : r = r' := Option.some.inj (e1.symm.trans f1)
        have g2 : t = t' := Option.some.inj (e2.symm.trans f2)
        subst g1 g2
        have g3 : q = q' := Option.some.inj (e3.symm.trans f3)
        subst g3
        show h' d = _
        rw [h1 d hn.1, upd_eq]
      · exact h2 p hp r' t' q' (by rw [hfst p hp]; exact f1) (by rw [hsnd p hp]; exact f2) f3

/-- The address map of a list of pairs. -/
def target (m : List (Addr × Addr)) (a : Addr) : Addr := (m.lookup a).getD 0

theorem zip_target : ∀ (K V : List Addr), K.length = V.length → K.Nodup → K.map (target (K.zip V)) = V ∧
    ∀ a ∈ K, remapAddr (K.zip V) a = some (target (K.zip V) a) ∧ (a, target (K.zip V) a) ∈ K.zip V
  | [], [], _, _ => ⟨rfl, by simp⟩
  | [], _ :: _, h, _ => by simp at h
  | _ :: _, [], h, _ => by simp at h
  | k :: K, v :: V, h, hn => by
    rw [List.nodup_cons] at hn
    obtain ⟨h1, h2⟩ := zip_target K V (by simpa using h) hn.2
    have hk : List.lookup k ((k :: K).zip (v :: V)) = some v := by rw [List.zip_cons_cons, List.lookup_cons_self]
    have hr : ∀ a ∈ K, List.lookup a ((k :: K).zip (v :: V)) = List.lookup a (K.zip V) := by
      intro a ha
      have : (a == k) = false := by
        rw [beq_eq_false_iff_ne]
        rintro rfl
        exact hn.1 ha
      rw [List.zip_cons_cons, List.lookup_cons, this]
    have ht : ∀ a ∈ K, target ((k :: K).zip (v :: V)) a = target (K.zip V) a := by
      intro a ha
      unfold target
      rw [hr a ha]
    have htk : target ((k :: K).zip (v :: V)) k = v := by unfold target; rw [hk]; rfl
    refine ⟨?_, fun a ha => ?_⟩
    · rw [List.map_cons, htk, List.map_congr_left ht, h1]
    · rcases List.mem_cons.mp ha with rfl | ha
      · rw [htk]
        exact ⟨hk, by rw [List.zip_cons_cons]; exact List.mem_cons_self ..⟩
      · rw [ht a ha]
        refine ⟨?_, by rw [List.zip_cons_cons]; exact List.mem_cons_of_mem _ (h2 a ha).2⟩
        unfold remapAddr
        rw [hr a ha]
        exact (h2 a ha).1

theorem Links.map {h h' : Heap} (φ : Addr → Addr) : ∀ {l : List Addr} {ss : List StateInfo}, Links h l ss →
    (∀ a ∈ l, ∀ r, h a = some r → h' (φ a) = some ⟨r.info, r.previous.map φ⟩) → Links h' (l.map φ) ss
  | [], _, hl, _ => by simp [Links] at hl
  | [a], [], hl, _ => by simp [Links] at hl
  | [a], [s], hl, hf => hf a (List.mem_cons_self ..) _ hl
  | [a], s :: t :: ss, hl, _ => by simp [Links] at hl
  | a :: b :: l, [], hl, _ => by simp [Links] at hl
  | a :: b :: l, s :: ss, hl, hf => by
    simp only [Links] at hl
    exact ⟨hf a (List.mem_cons_self ..) _ hl.1, Links.map φ hl.2 fun x hx => hf x (List.mem_cons_of_mem _ hx)⟩

theorem Matches.map {h h' : Heap} (φ : Addr → Addr) : ∀ {l : List Entry} {l' : List HistEntry}, Matches h l l' →
    (∀ a ∈ l.map Entry.addr, ∀ r, h a = some r → h' (φ a) = some ⟨r.info, r.previous.map φ⟩) →
    Matches h' (l.map fun e => e.at (φ e.addr)) l'
  | [], [], _, _ => trivial
  | [], _ :: _, hm, _ => by simp [Matches] at hm
  | .move m a :: l, [], hm, _ => by simp [Matches] at hm
  | .pass a :: l, [], hm, _ => by simp [Matches] at hm
  | .move m a :: l, .move m' :: l', hm, hf => ⟨hm.1, hm.2.map φ fun x hx => hf x (List.mem_cons_of_mem _ hx)⟩
  | .pass a :: l, .pass k :: l', hm, hf => ⟨hf a (List.mem_cons_self ..) _ hm.1, hm.2.map φ fun x hx => hf x (List.mem_cons_of_mem _ hx)⟩
  | .move m a :: l, .pass k :: l', hm, _ => by simp [Matches] at hm
  | .pass a :: l, .move m :: l', hm, _ => by simp [Matches] at hm

theorem moveAddrs_map (φ : Addr → Addr) : ∀ l : List Entry, moveAddrs (l.map fun e => e.at (φ e.addr)) = (moveAddrs l).map φ
  | [] => rfl
  | .move m a :: l => congrArg (φ a :: ·) (moveAddrs_map φ l)
  | .pass a :: l => moveAddrs_map φ l

theorem zipWith_at (φ : Addr → Addr) : ∀ l : List Entry, List.zipWith Entry.at l ((l.map Entry.addr).map φ) = l.map fun e => e.at (φ e.addr)
  | [] => rfl
  | e :: l => congrArg (_ :: ·) (zipWith_at φ l)

theorem at_addr (e : Entry) (a : Addr) : (e.at a).addr = a := by cases e <;> rfl

theorem Rep.copyTo {h : Heap} {b : HBoard} {B : Board} (hr : Rep h b B) {start : Addr} {as : List Addr} (hlen : as.length = b.hist.length)
    (hn : (start :: as).Nodup) (hd : ∀ x ∈ start :: as, x ∉ b.own) :
    ∃ h' b', copyTo h b start as = some (h', b') ∧ Rep h' b' B ∧ b'.own = start :: as ∧ ∀ x, x ∉ start :: as → h' x = h x := by
  obtain ⟨S, hS⟩ : ∃ x, x = (b.hist.map Entry.addr).reverse := ⟨_, rfl⟩
  obtain ⟨D, hD⟩ : ∃ x, x = as.reverse := ⟨_, rfl⟩
  have hSD : S.length = D.length := by rw [hS, hD]; simp [hlen]
  have memS : ∀ x, x ∈ S ↔ x ∈ b.hist.map Entry.addr := by intro x; rw [hS, List.mem_reverse]
  have memD : ∀ x, x ∈ D ↔ x ∈ as := by intro x; rw [hD, List.mem_reverse]
  have hown : ∀ x, x ∈ b.start :: S ↔ x ∈ b.own := by
    intro x
    unfold HBoard.own
    rw [List.mem_cons, List.mem_cons, memS]
  have hnew : ∀ x, x ∈ start :: D ↔ x ∈ start :: as := by
    intro x
    rw [List.mem_cons, List.mem_cons, memD]
  have hnS : (b.start :: S).Nodup := by
    have := hr.nodup
    unfold HBoard.own at this
    rw [List.nodup_cons] at this ⊢
    exact ⟨fun x => this.1 ((memS _).mp x), by rw [hS, List.nodup_reverse]; exact this.2⟩
  have hnD : (start :: D).Nodup := by
    rw [List.nodup_cons] at hn ⊢
    exact ⟨fun x => hn.1 ((memD _).mp x), by rw [hD, List.nodup_reverse]; exact hn.2⟩
  have hdis : ∀ x ∈ start :: D, x ∉ b.start :: S := fun x hx hs => hd x ((hnew x).mp hx) ((hown x).mp hs)
  obtain ⟨l, hl, e, -, -⟩ := hr.read
  have hst : b.st ∈ b.own := chain_sub b _ (by rw [hl]; exact List.mem_cons_self ..)
  obtain ⟨s, hs, -⟩ := hr.alloc b.start (List.mem_cons_self ..)
  -- the copied history
  obtain ⟨h0, hh0⟩ : ∃ x, x = upd h start (some ⟨B.pos.st, l.head?⟩) := ⟨_, rfl⟩
  have h0own : ∀ x ∈ b.own, h0 x = h x := by
    intro x hx
    rw [hh0]
    apply upd_ne
    rintro rfl
    exact hd _ (List.mem_cons_self ..) hx
  obtain ⟨h1, e1, f1, g1⟩ := copyRecs_spec S D h0 hSD (List.nodup_cons.mp hnD).2
    (fun d hd' hs' => hdis d (List.mem_cons_of_mem _ hd') (List.mem_cons_of_mem _ hs'))
    (fun x hx => by
      have hx' : x ∈ b.own := (hown x).mp (List.mem_cons_of_mem _ hx)
      rw [h0own x hx']
      obtain ⟨r, hr', -⟩ := hr.alloc x hx'
      rw [hr']
      simp)
  obtain ⟨h2, hh2⟩ : ∃ x, x = upd h1 start (some s) := ⟨_, rfl⟩
  have h2own : ∀ x ∈ b.own, h2 x = h x := by
    intro x hx
    rw [hh2, upd_ne (by rintro rfl; exact hd _ (List.mem_cons_self ..) hx),
      f1 x (fun hx' => hd x ((hnew x).mp (List.mem_cons_of_mem _ hx')) hx), h0own x hx]
  obtain ⟨pairs, hpairs⟩ : ∃ x, x = (b.start, start) :: S.zip D := ⟨_, rfl⟩
  have hzip : pairs = (b.start :: S).zip (start :: D) := by rw [hpairs, List.zip_cons_cons]
  obtain ⟨t1, t2⟩ := zip_target (b.start :: S) (start :: D) (by simp [hSD]) hnS
  rw [← hzip] at t1 t2
  have hfst : pairs.map Prod.fst = b.start :: S := by rw [hzip]; exact List.map_fst_zip (by simp [hSD])
  have hsnd : pairs.map Prod.snd = start :: D := by rw [hzip]; exact List.map_snd_zip (by simp [hSD])
  have hcp : ∀ p ∈ pairs, h2 p.2 = h p.1 := by
    intro p hp
    rw [hpairs] at hp
    rcases List.mem_cons.mp hp with rfl | hp
    · show h2 start = h b.start
      rw [hh2, upd_eq, hs]
    · have hp2 : p.2 ∈ D := (List.of_mem_zip hp).2
      have hp1 : p.1 ∈ S := (List.of_mem_zip hp).1
      rw [hh2, upd_ne, g1 p hp, h0own _ ((hown _).mp (List.mem_cons_of_mem _ hp1))]
      intro he
      exact (List.nodup_cons.mp hnD).1 (he ▸ hp2)
  have hmap : ∀ a ∈ b.own, ∀ r, h a = some r → remapPtr pairs r.previous = some (r.previous.map (target pairs)) := by
    intro a ha r hr'
    obtain ⟨r2, hr2, hprev⟩ := hr.alloc a ha
    have : r = r2 := Option.some.inj (hr'.symm.trans hr2)
    subst this
    cases hp : r.previous with
    | none => rfl
    | some y =>
      show (remapAddr pairs y).map some = _
      rw [(t2 y ((hown y).mpr (hprev y hp))).1]
      rfl
  obtain ⟨h3, e3, f3, g3⟩ := relink_spec pairs pairs h2 (by rw [hsnd]; exact hnD) (by rw [hsnd, hfst]; exact hdis)
    (fun p hp => by
      have hp1 : p.1 ∈ b.own := (hown _).mp (by rw [← hfst]; exact List.mem_map_of_mem hp)
      obtain ⟨r, hr', -⟩ := hr.alloc p.1 hp1
      exact ⟨r, r, _, by rw [h2own _ hp1]; exact hr', by rw [hcp p hp]; exact hr', hmap _ hp1 r hr'⟩)
  have hfin : ∀ a ∈ b.own, ∀ r, h a = some r → h3 (target pairs a) = some ⟨r.info, r.previous.map (target pairs)⟩ := by
    intro a ha r hr'
    have hp := (t2 a ((hown a).mpr ha)).2
    exact g3 (a, target pairs a) hp r r _ (by rw [h2own a ha]; exact hr') (by rw [hcp _ hp]; exact hr') (hmap a ha r hr')
  have hstm : remapAddr pairs b.st = some (target pairs b.st) := (t2 _ ((hown _).mpr hst)).1
  have htD : S.map (target pairs) = D := by
    rw [List.map_cons] at t1
    exact (List.cons.inj t1).2
  have hts : target pairs b.start = start := by
    rw [List.map_cons] at t1
    exact (List.cons.inj t1).1
  have has : (b.hist.map Entry.addr).map (target pairs) = as := by
    rw [hS, hD, List.map_reverse] at htD
    exact List.reverse_injective htD
  refine ⟨h3, ⟨b.body, start, target pairs b.st, List.zipWith Entry.at b.hist as⟩, ?_, ⟨hr.body, ?_, ?_, ?_, ?_⟩, ?_, ?_⟩
  · unfold Mem.copyTo
    rw [e, hs]
    simp only
    rw [← hh0, ← hS, ← hD, e1]
    simp only
    rw [← hh2, ← hpairs, e3]
    simp only
    rw [hstm]
  · show (start :: (List.zipWith Entry.at b.hist as).map Entry.addr).Nodup
    rw [← has, zipWith_at, List.map_map]
    rw [show (Entry.addr ∘ fun e : Entry => e.at (target pairs e.addr)) = target pairs ∘ Entry.addr from by
      funext e; exact at_addr e _]
    rw [← List.map_map, has]
    exact hn
  · show (moveAddrs (List.zipWith Entry.at b.hist as) ++ [start]).head? = _
    rw [← has, zipWith_at, moveAddrs_map, ← hts, show [target pairs b.start] = [b.start].map (target pairs) from rfl, ← List.map_append]
    rw [show moveAddrs b.hist ++ [b.start] = b.st :: l from hl]
    rfl
  · show Links h3 (moveAddrs (List.zipWith Entry.at b.hist as) ++ [start]) _
    rw [← has, zipWith_at, moveAddrs_map, ← hts, show [target pairs b.start] = [b.start].map (target pairs) from rfl, ← List.map_append]
    exact hr.links.map (target pairs) fun a ha => hfin a (chain_sub b a ha)
  · show Matches h3 (List.zipWith Entry.at b.hist as) _
    rw [← has, zipWith_at]
    exact hr.entries.map (target pairs) fun a ha => hfin a (List.mem_cons_of_mem _ ha)
  · show start :: (List.zipWith Entry.at b.hist as).map Entry.addr = start :: as
    congr 1
    conv_lhs => rw [← has]
    rw [zipWith_at, List.map_map]
    rw [show (Entry.addr ∘ fun e : Entry => e.at (target pairs e.addr)) = target pairs ∘ Entry.addr from by
      funext e; exact at_addr e _]
    rw [← List.map_map, has]
  · intro x hx
    have hx' : x ∉ start :: D := fun y => hx ((hnew x).mp y)
    rw [List.mem_cons, not_or] at hx'
    rw [f3 x (by rw [hsnd, List.mem_cons, not_or]; exact hx'), hh2, upd_ne hx'.1, f1 x hx'.2, hh0, upd_ne hx'.1]

end Mem
end Verif
