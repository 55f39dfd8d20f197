import Verif.Model.CsaFile

/-!
# Specification: headers and comments in CSA records
-/

namespace Verif.Spec

/-- The beginnings of a comment line that floodgate gives a meaning to. -/
def knownWords : List String := ["black_rate:", "white_rate:", "** ", "summary:"]

/-- A line of a comment without such a meaning. -/
def PlainLine (l : List Char) : Prop := '\n' ∉ l ∧ ∀ w ∈ knownWords, ¬ w.toList <+: l

/-- The lines as they stand in a record. -/
def commentText (ls : List (List Char)) : List Char := ls.flatMap fun l => '\'' :: (l ++ ['\n'])

/-- A comment given to the exporter and the lines it consists of: one line without an apostrophe, or lines as they stand in a record. -/
inductive CommentOf : List Char → List (List Char) → Prop
  | empty : CommentOf [] []
  | single (c : Char) (l : List Char) : c ≠ '\'' → CommentOf (c :: l) [c :: l]
  | written (ls : List (List Char)) : ls ≠ [] → CommentOf (commentText ls) ls

/-- A comment on a move: an evaluation with further words (the variation), the same without a number, or any other remark. -/
inductive Note where
  | silent
  | score (n : Int) (words : List Char)
  | line (l : List Char)
  | remark (l : List Char)

/-- The text given to the exporter. -/
def Note.text : Note → List Char
  | .silent => []
  | .score n [] => '*' :: '*' :: ' ' :: intChars n
  | .score n ws => '*' :: '*' :: ' ' :: (intChars n ++ ' ' :: ws)
  | .line l => '*' :: '*' :: ' ' :: l
  | .remark l => l

/-- The evaluation of the move, 0 if there is none. -/
def Note.value : Note → Int
  | .score n _ => n
  | _ => 0

/-- The comment on the move, without the stars. -/
def Note.stored : Note → List Char
  | .score n [] => intChars n
  | .score n ws => intChars n ++ ' ' :: ws
  | .line l => l
  | _ => []

/-- What is left of the remark. -/
def Note.loose : Note → List (List Char)
  | .remark l => [l]
  | _ => []

/-- One line, an evaluation that fits into 32 bits, words that do not begin like a number. -/
def Note.Fine : Note → Prop
  | .silent => True
  | .score n ws => -2147483648 ≤ n ∧ n ≤ 2147483647 ∧ '\n' ∉ ws
  | .line l => '\n' ∉ l ∧ ∀ c ∈ l.head?, c.isDigit = false ∧ c ≠ '+' ∧ c ≠ '-' ∧ Position.isSpace c = false
  | .remark l => l ≠ [] ∧ PlainLine l

/-- A header that can be written on whole lines: the version begins with the letter V, the comment consists of the plain lines `ls`, and each
key of the information stands for one value. -/
structure FineHeader (h : Csa.Header) (ls : List (List Char)) : Prop where
  version : h.version = [] ∨ ∃ cs, h.version = 'V' :: cs
  versionLine : '\n' ∉ h.version
  names : ∀ n ∈ h.names, '\n' ∉ n.1 ∧ '\n' ∉ n.2
  comment : CommentOf h.comment ls
  plain : ∀ l ∈ ls, PlainLine l
  infos : ∀ i ∈ h.infos, '\n' ∉ i.1 ∧ ':' ∉ i.1 ∧ '\n' ∉ i.2
  once : (h.infos.map (·.1)).Nodup

end Verif.Spec
