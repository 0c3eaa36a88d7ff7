import Verif.Spec.Bind
import Verif.Spec.Sites

/-!
Which source text a node refers to, and when that text is freed.

A node holds references into the text of the file it was read from (its site: expander.rs
builds no sites of its own). The text of an included file is owned by the `subparsers` of the
context that includes it (expander.rs:125-131). A call of a user macro runs the body in a copy
of the context and drops the copy, with all files it has included, when the body is expanded
(expander.rs:142-156, 1695-1708; `latest_parser` and `latest_context` go through raw pointers,
so that the compiler does not notice). Files are numbered in the order in which they are read
(`fresh` is the next number, the main source is 1); so the files that a call drops are those
with the numbers between the `fresh` of the state in which the body begins and the `fresh` of
the state in which it ends. `%namespace` (all arguments), `%for` (the body) and `%match` (the
chosen branch) also work on a copy that is dropped (expander.rs:1092, 1142, 482).
-/

namespace Seam.Spec

/-- All nodes refer to files with numbers below `n`. -/
def Below (n : Nat) (ns : List PNode) : Prop := ∀ x ∈ sitess ns, x.buf < n

/-- All definitions and log lines refer to files that have been read. -/
structure Loaded (s : St) : Prop where
  scope : ∀ name m, s.scope name = some m → Below s.fresh m.params ∧ Below s.fresh m.body
  log : ∀ l ∈ s.log, l.site.buf < s.fresh

/-- The file of `x` is read between the states `u` and `t`. -/
def ReadBetween (u t : St) (x : Site) : Prop := u.fresh ≤ x.buf ∧ x.buf < t.fresh

end Seam.Spec
