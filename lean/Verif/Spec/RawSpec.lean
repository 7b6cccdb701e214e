import Verif.Base.Text
/-!
# Specification: the raw strings of a content
-/

namespace Verif.Spec

/-- A piece of a content: a text without backtick, or a raw string given by the text between its backticks. -/
inductive Piece where
  | plain (t : Text)
  | raw (s : Text)

/-- The content of some pieces. -/
def Piece.write : Piece → Text
  | .plain t => t
  | .raw s => '`' :: (s ++ ['`'])

/-- The text of a piece. -/
def Piece.body : Piece → Text
  | .plain t => t
  | .raw s => s

/-- A raw string on several lines. -/
def Piece.long : Piece → Bool
  | .plain _ => false
  | .raw s => List.elem '\n' s

/-- Texts with others between them: `t₀ s₀ t₁ s₁ … tₙ`. -/
def weave : List Text → List Text → Text
  | t :: ts, s :: ss => t ++ s ++ weave ts ss
  | t :: _, [] => t
  | [], _ => []

/-- The multi-line raw strings of a content. -/
def longStrings (ps : List Piece) : List Text := (ps.filter Piece.long).map Piece.write

/-- The texts around the multi-line raw strings. -/
def around (tail : Text) : List Piece → List Text
  | [] => [tail]
  | p :: ps =>
    if p.long then [] :: around tail ps
    else match around tail ps with
      | t :: ts => (p.write ++ t) :: ts
      | [] => []

/-- A text that does not contain another one. -/
def Free (k t : Text) : Prop := ¬ k <:+: t

end Verif.Spec
