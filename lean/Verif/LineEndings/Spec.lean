import Verif.Text.Spec

namespace Verif.LineEndings

/-- Replace every carriage-return+newline pair by a newline, and change nothing else. -/
inductive CrlfToLf : Text → Text → Prop where
  | nil : CrlfToLf [] []
  | pair {t u} : CrlfToLf t u → CrlfToLf ('\r' :: '\n' :: t) ('\n' :: u)
  | keep {c t u} : ¬ (c = '\r' ∧ t.head? = some '\n') → CrlfToLf t u → CrlfToLf (c :: t) (c :: u)

end Verif.LineEndings
