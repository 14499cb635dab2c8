import Verif.Model.Base

/-!
# The regular expressions the engine builds

A fragment of Go's `regexp` syntax: literals, escaped punctuation, `[c]`, `.`, `*`, `^`, `$`, `|` and groups, with the usual
meaning. `RegexpOk env` says that the external functions `regexp.Compile` and `MatchString` behave on this fragment as
described here; outside the fragment nothing is assumed. The theorems that need it carry it as a hypothesis.
-/

namespace Mapl.Spec

/-- Abstract syntax. -/
inductive RE
  | eps
  | chr (c : Char)
  | dot
  | bol
  | eol
  | seq (a b : RE)
  | alt (a b : RE)
  | star (a : RE)

/-- `MatchesAt r pre x post`: in the text `pre ++ x ++ post`, `r` can match the part `x`. -/
inductive MatchesAt : RE → Str → Str → Str → Prop
  | eps {pre post} : MatchesAt .eps pre [] post
  | chr {c pre post} : MatchesAt (.chr c) pre [c] post
  | dot {c pre post} (h : c ≠ '\n') : MatchesAt .dot pre [c] post
  | bol {post} : MatchesAt .bol [] [] post
  | eol {pre} : MatchesAt .eol pre [] []
  | seq {a b pre x y post} (ha : MatchesAt a pre x (y ++ post)) (hb : MatchesAt b (pre ++ x) y post) :
      MatchesAt (.seq a b) pre (x ++ y) post
  | altL {a b pre x post} (h : MatchesAt a pre x post) : MatchesAt (.alt a b) pre x post
  | altR {a b pre x post} (h : MatchesAt b pre x post) : MatchesAt (.alt a b) pre x post
  | starNil {a pre post} : MatchesAt (.star a) pre [] post
  | starCons {a pre x y post} (ha : MatchesAt a pre x (y ++ post)) (hb : MatchesAt (.star a) (pre ++ x) y post) :
      MatchesAt (.star a) pre (x ++ y) post

/-- `MatchString`: some part of the text is matched. -/
def Finds (r : RE) (s : Str) : Prop := ∃ pre x post, s = pre ++ x ++ post ∧ MatchesAt r pre x post

/-- Tokens of a pattern. -/
inductive Tok
  | chr (c : Char)
  | dot
  | star
  | bol
  | eol
  | bar
  | lp
  | rp

/-- Characters that may follow a backslash in the fragment. -/
def escapable : List Char := ['.', '$', '^', '*', '?', '/', '+', '(', ')', '[', ']', '{', '}', '|', '\\']

/-- Characters that have a meaning of their own. -/
def special : List Char := ['.', '$', '^', '*', '?', '+', '(', ')', '[', ']', '{', '}', '|', '\\']

/-- Tokens of a pattern text; `none` if the text is not in the fragment. -/
def tokens : Str → Option (List Tok)
  | [] => some []
  | '\\' :: c :: cs => if c ∈ escapable then (tokens cs).map (.chr c :: ·) else none
  | '[' :: c :: ']' :: cs => if c ∈ ['^', '\\', '[', ']', '-'] then none else (tokens cs).map (.chr c :: ·)
  | '.' :: cs => (tokens cs).map (.dot :: ·)
  | '*' :: cs => (tokens cs).map (.star :: ·)
  | '^' :: cs => (tokens cs).map (.bol :: ·)
  | '$' :: cs => (tokens cs).map (.eol :: ·)
  | '|' :: cs => (tokens cs).map (.bar :: ·)
  | '(' :: cs => (tokens cs).map (.lp :: ·)
  | ')' :: cs => (tokens cs).map (.rp :: ·)
  | c :: cs => if c ∈ special then none else (tokens cs).map (.chr c :: ·)

/-- State of one group while it is read: the alternatives that are complete, the sequence read so far without its last
item, and the last item if a star may follow it. -/
structure Reading where
  alts : Option RE := none
  cur : RE := .eps
  last : Option RE := none

/-- The sequence read so far. -/
def Reading.flush (g : Reading) : RE :=
  match g.last with
  | none => g.cur
  | some a => .seq g.cur a

/-- The group read so far. -/
def Reading.close (g : Reading) : RE :=
  match g.alts with
  | none => g.flush
  | some a => .alt a g.flush

/-- Read tokens; the list of open groups is innermost first. A star may follow a character, a dot or a group only. -/
def readToks : List Reading → Reading → List Tok → Option RE
  | [], g, [] => some g.close
  | _ :: _, _, [] => none
  | st, g, .chr c :: ts => readToks st ⟨g.alts, g.flush, some (.chr c)⟩ ts
  | st, g, .dot :: ts => readToks st ⟨g.alts, g.flush, some .dot⟩ ts
  | st, g, .bol :: ts => readToks st ⟨g.alts, .seq g.flush .bol, none⟩ ts
  | st, g, .eol :: ts => readToks st ⟨g.alts, .seq g.flush .eol, none⟩ ts
  | st, g, .star :: ts => match g.last with
    | none => none
    | some a => readToks st ⟨g.alts, .seq g.cur (.star a), none⟩ ts
  | st, g, .bar :: ts => readToks st ⟨some g.close, .eps, none⟩ ts
  | st, g, .lp :: ts => readToks (g :: st) {} ts
  | g' :: st, g, .rp :: ts => readToks st ⟨g'.alts, g'.flush, some g.close⟩ ts
  | [], _, .rp :: _ => none

/-- The regular expression a pattern text denotes; `none` if the text is not in the fragment. -/
def readPattern (p : Str) : Option RE := (tokens p).bind (readToks [] {})

/-- On the fragment, `regexp.Compile` succeeds and `MatchString` finds what the expression describes. -/
def RegexpOk (env : Ext) : Prop :=
  ∀ p r, readPattern p = some r → env.reOk p = true ∧ ∀ s, env.reMatch p s = true ↔ Finds r s

/-- Glob patterns: `*` is any text, `?` any single character, everything else itself. -/
def Glob : Str → Str → Prop
  | [], s => s = []
  | c :: p, s =>
    if c = '*' then ∃ x y, s = x ++ y ∧ Glob p y
    else if c = '?' then ∃ d y, s = d :: y ∧ Glob p y
    else ∃ y, s = c :: y ∧ Glob p y

/-- A pattern without the regular-expression characters that globbing does not know. -/
def PlainPattern (p : Str) : Prop := ∀ c ∈ p, c ∉ ['+', '(', ')', '[', ']', '{', '}', '|', '\\']

end Mapl.Spec
