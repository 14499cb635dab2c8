import Verif.Lemmas.Words
import Verif.Spec.Leaf

/-!
# What methods say about texts
-/

namespace Mapl.Spec

/-- What a method with a value says about a text. EQ and NEQ: with a word that has no character of patterns in it.
RE and NRE: with a pattern of the fragment in `Spec/Regex.lean`. -/
inductive TextMeans : Str → Str → (Str → Prop) → Prop
  | eq {m w} (hm : m ∈ [gs"EQ", gs"eq"]) (hw : PlainWord w) : TextMeans m w (· = w)
  | ne {m w} (hm : m ∈ [gs"NEQ", gs"neq", gs"NE", gs"ne"]) (hw : PlainWord w) : TextMeans m w (· ≠ w)
  /-- Values with characters of patterns are patterns for the whole text. -/
  | fits {m w re} (hm : m ∈ [gs"EQ", gs"eq"]) (hw : readPattern (gs"^" ++ w ++ gs"$") = some re) : TextMeans m w (Finds re)
  | differs {m w re} (hm : m ∈ [gs"NEQ", gs"neq", gs"NE", gs"ne"]) (hw : readPattern (gs"^" ++ w ++ gs"$") = some re) : TextMeans m w (¬ Finds re ·)
  | found {m w re} (hm : m ∈ [gs"RE", gs"re"]) (hw : readPattern w = some re) : TextMeans m w (Finds re)
  | notFound {m w re} (hm : m ∈ [gs"NRE", gs"nre"]) (hw : readPattern w = some re) : TextMeans m w (¬ Finds re ·)
  | nonempty {m w} (hm : m ∈ [gs"EX", gs"ex"]) : TextMeans m w (· ≠ [])
  | empty {m w} (hm : m ∈ [gs"NEX", gs"nex"]) : TextMeans m w (· = [])
  | isIn {m w words} (hm : m ∈ [gs"IN", gs"IS"]) (hl : ∀ x ∈ words, PlainWord x) (hn : words ≠ []) (hw : Written words w) :
      TextMeans m w (· ∈ words)
  | notIn {m w words} (hm : m = gs"NIN") (hl : ∀ x ∈ words, PlainWord x) (hn : words ≠ []) (hw : Written words w) :
      TextMeans m w (· ∉ words)

/-- The value is not read as a field or a label of the receiver. -/
def NoReference (w : Str) : Prop := (¬ ∃ y, w = gs"$receiver." ++ y) ∧ ¬ ∃ y, w = gs"receiverLabel[" ++ y

/-- What a method with a value says about a scalar that a json path selects (for EQ and NEQ: if the text of the scalar is not a number). EQ
and NEQ do not read the value as a pattern, and NE is not NEQ. -/
inductive ScalarMeans : Str → Str → (Str → Prop) → Prop
  | eq {m w} (hm : m ∈ [gs"EQ", gs"eq"]) (hw : NoReference w) : ScalarMeans m w (· = w)
  | ne {m w} (hm : m ∈ [gs"NEQ", gs"neq"]) (hw : NoReference w) : ScalarMeans m w (· ≠ w)
  | found {m w re} (hm : m ∈ [gs"RE", gs"re"]) (hw : readPattern w = some re) : ScalarMeans m w (Finds re)
  | notFound {m w re} (hm : m ∈ [gs"NRE", gs"nre"]) (hw : readPattern w = some re) : ScalarMeans m w (¬ Finds re ·)
  | there {m w} (hm : m ∈ [gs"EX", gs"ex"]) : ScalarMeans m w fun _ => True
  | notThere {m w} (hm : m ∈ [gs"NEX", gs"nex"]) : ScalarMeans m w fun _ => False
  | isIn {m w words} (hm : m ∈ [gs"IN", gs"IS"]) (hl : ∀ x ∈ words, PlainWord x) (hn : words ≠ []) (hw : Written words w) :
      ScalarMeans m w (· ∈ words)
  | notIn {m w words} (hm : m = gs"NIN") (hl : ∀ x ∈ words, PlainWord x) (hn : words ≠ []) (hw : Written words w) :
      ScalarMeans m w (· ∉ words)

end Mapl.Spec
