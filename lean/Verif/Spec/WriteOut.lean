import Verif.Spec.Narrow

/-! # References that are replaced by the texts they stand for (C108) -/

namespace Mapl.Spec

mutual
/-- The statement with other values: `text m v` instead of the value `v` in every condition with the method `m`. -/
def Statement.withValues (text : Str → Str → Str) : Statement → Statement
  | .cond a m v => .cond a m (text m v)
  | .and fs => .and (Statement.allWithValues text fs)
  | .or fs => .or (Statement.allWithValues text fs)
  | .not f => .not (f.withValues text)
  | .any q f => .any q (f.withValues text)
  | .all q f => .all q (f.withValues text)

def Statement.allWithValues (text : Str → Str → Str) : List Statement → List Statement
  | [] => []
  | f :: fs => f.withValues text :: Statement.allWithValues text fs
end

/-- Every value is left as it is, or replaced by the text that it stands for. The text does not look like a reference, and has no control characters. -/
def WritesOut (env : Ext) (t : Predef) (text : Str → Str → Str) : Prop :=
  ∀ m v, text m v = v ∨ ValueResolves env t m v (text m v) ∧ (∀ k, text m v ≠ '#' :: k) ∧ NoControl (text m v)

/-- The name is left as it is, or replaced by the text that it stands for, which does not look like a reference. -/
def NameOut (name stands name' : Str) : Prop := name' = name ∨ name' = stands ∧ ∀ k, stands ≠ '#' :: k

/-- The second rule is the first one with some references replaced by the texts that they stand for. -/
structure ReferencesOut (env : Env) (t : Predef) (x x' : Wording) : Prop where
  values : ∃ text, WritesOut env t text ∧ x'.conditions = x.conditions.map (Statement.withValues text)
  sender : NameOut x.body.senderName x.sender x'.body.senderName
  receiver : NameOut x.body.receiverName x.receiver x'.body.receiverName
  rest : x'.body = { x.body with senderName := x'.body.senderName, receiverName := x'.body.receiverName, conditions := x'.conditions.map (Statement.tree env) }
  senderText : x'.sender = x.sender
  receiverText : x'.receiver = x.receiver

end Mapl.Spec
