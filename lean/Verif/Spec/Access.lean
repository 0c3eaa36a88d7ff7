import Verif.Spec.Data
import Verif.Spec.Builtins

/-! Data whose parts are found the same way by name and by `%get`. -/

namespace Seam.Spec

/-- In every table the keys are different, do not contain the separator `c`, and are not numbers that
are positions in the table; arrays have less than 2^64 items. -/
inductive Tidy (c : Char) : Data → Prop
  | text (v : Str) : Tidy c (.text v)
  | number (v : Str) : Tidy c (.number v)
  | symbol (v : Str) : Tidy c (.symbol v)
  | items (ds : List Data) : ds.length < 2 ^ 64 → (∀ d ∈ ds, Tidy c d) → Tidy c (.items ds)
  | entries (es : List (Str × Data)) : (es.map (·.1)).Nodup → (∀ e ∈ es, c ∉ e.1) →
      (∀ e ∈ es, ∀ i, Numeral e.1 i → es.length ≤ i) → (∀ e ∈ es, Tidy c e.2) → Tidy c (.entries es)

/-- No symbol in the data (a date or a boolean of TOML) starts with `%`. -/
inductive PlainData : Data → Prop
  | text (v : Str) : PlainData (.text v)
  | number (v : Str) : PlainData (.number v)
  | symbol (v : Str) : (∀ x, v ≠ '%' :: x) → PlainData (.symbol v)
  | items (ds : List Data) : (∀ d ∈ ds, PlainData d) → PlainData (.items ds)
  | entries (es : List (Str × Data)) : (∀ e ∈ es, PlainData e.2) → PlainData (.entries es)

end Seam.Spec
