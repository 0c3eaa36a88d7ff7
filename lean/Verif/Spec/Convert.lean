import Verif.Spec.Eval
import Verif.Spec.Pairs

/-! # Specification: arguments of `%format`; macros that expand their arguments first -/

namespace Seam.Spec

/-- An argument of `%format`: a literal, or a literal with a name. -/
inductive FormatArg : PNode → Option Str × Str → Prop
  | plain (n : PNode) (a : Node) (h : Literal n a) : FormatArg n (none, a.value)
  | named (k : Str) (v : PNode) (a : Node) (s : Site) (w : Str) (h : Literal v a) : FormatArg (.attr k v s w) (some k, a.value)

/-- The macros that expand all their arguments before anything else. -/
def eager : List Str := [
  str! "do", str! "get", str! "raw", str! "string", str! "number", str! "symbol", str! "include", str! "embed",
  str! "markdown", str! "yaml", str! "json", str! "toml", str! "glob", str! "sort", str! "reverse",
  str! "date", str! "timestamp", str! "join", str! "concat", str! "map", str! "filter", str! "splat", str! "list",
  str! "strip", str! "apply", str! "log", str! "format", str! "os/env"]

end Seam.Spec
