import Verif.Lemmas.Nearest
import Verif.Lemmas.Cases
import Verif.Lemmas.Date
import Verif.Lemmas.EvalCheck
import Verif.Props.Lists

/-!
# Properties of `%date` and `%timestamp` (C57)

`vs` are the expanded arguments of the call `c`; `u` is the state after their expansion.
Formatting and parsing of dates, and the parser of fixed-point numbers, are parameters; the
latter is assumed to deliver the nearest number (`NearestFixed` in Spec/Date).
-/

namespace Seam
open Spec

/-- C57: `(%date format time :timezone d)` shows the time in the zone that is `d` hours,
rounded to the nearest second, ahead of UTC, for a decimal number `d` with up to 9 digits
after the point; it is an error if that is a day or more.
Missing: more digits, for which the rounding may be off, see `C57_digits_false` and `C57_close`. -/
theorem C57_date_partial (ext : Ext) (c m : PNode) (args vs ts : List PNode) (a tz : Node) (z : Option Int) (n : Int) (k : Nat)
    (s u : St) (hext : NearestFixed ext.fixed)
    (hc : IsCall (str! "date") args c) (ha : Evals ext args s (.ok vs) u) (hp : positional vs = m :: ts)
    (hl : Literal m a) (ht : TimeArg ext ts z) (hn : NamedArgs (fun k v => k = str! "timezone" ∧ ∃ a, v = .number a) vs)
    (ho : Given (str! "timezone") vs (some tz)) (hd : Decimal tz.value n k) (hk : k ≤ 9)
    (hr : -(596523 * 10 ^ k) ≤ n ∧ n ≤ 596523 * 10 ^ k) :
    ∃ off, NearestSecond n k off ∧
      (OffsetOk off → ∀ text, ext.date z off a.value = some text → Evals ext [c] s (.ok [stringAt c text]) u) ∧
      (¬ OffsetOk off → ∃ e, Evals ext [c] s (.err e) u) := by
  obtain ⟨b, h1, h2, h3⟩ := hext _ _ _ hd (by have := pow10_pos k; omega)
  obtain ⟨r, h4⟩ := tz_defined (pow10_pos k) h2 h3 hr
  have htz : timezone ext (some tz) = pure r := by
    unfold timezone
    simp only [h1, h4]
  refine ⟨r, tz_nearest hk h2 h3 h4, fun ho' text hdate => (date_runs hc ha hp hl ht hn ho).2 ⟨by simp, ?_⟩, fun ho' =>
    ⟨expErr "Failed to compute UTC+(east) offset." tz.site, (date_runs hc ha hp hl ht hn ho).2 ⟨by simp, ?_⟩⟩⟩
  · rw [htz]
    show (if eastOk r = true then _ else _ : M (List PNode)) u = _
    rw [if_pos ((eastOk_iff r).2 ho'), hdate]
    rfl
  · rw [htz]
    show (if eastOk r = true then _ else _ : M (List PNode)) u = _
    rw [if_neg fun h => ho' ((eastOk_iff r).1 h)]
    rfl

/-- C57: likewise `(%timestamp format text :timezone d)`, for a text without a zone of its own,
is the time in that zone; the zone of the text has precedence. -/
theorem C57_timestamp_partial (ext : Ext) (c m m' : PNode) (args vs : List PNode) (a a' tz : Node) (n : Int) (k : Nat)
    (s u : St) (hext : NearestFixed ext.fixed)
    (hc : IsCall (str! "timestamp") args c) (ha : Evals ext args s (.ok vs) u) (hp : positional vs = [m, m'])
    (hl : Literal m a) (hl' : Literal m' a') (hn : NamedArgs (fun k v => k = str! "timezone" ∧ ∃ a, v = .number a) vs)
    (ho : Given (str! "timezone") vs (some tz)) (hd : Decimal tz.value n k) (hk : k ≤ 9)
    (hr : -(596523 * 10 ^ k) ≤ n ∧ n ≤ 596523 * 10 ^ k) :
    ∃ off, NearestSecond n k off ∧
      (OffsetOk off → ∀ t, ext.zonedTime a'.value a.value = none → ext.naiveTime a'.value a.value = some t →
        ∃ x, Decimal x (t - off) 0 ∧ Evals ext [c] s (.ok [.number ⟨x, c.site, c.lw⟩]) u) ∧
      (OffsetOk off → ∀ t, ext.zonedTime a'.value a.value = some t →
        ∃ x, Decimal x t 0 ∧ Evals ext [c] s (.ok [.number ⟨x, c.site, c.lw⟩]) u) ∧
      (¬ OffsetOk off → ∃ e, Evals ext [c] s (.err e) u) := by
  obtain ⟨b, h1, h2, h3⟩ := hext _ _ _ hd (by have := pow10_pos k; omega)
  obtain ⟨r, h4⟩ := tz_defined (pow10_pos k) h2 h3 hr
  have htz : timezone ext (some tz) = pure r := by
    unfold timezone
    simp only [h1, h4]
  refine ⟨r, tz_nearest hk h2 h3 h4, fun ho' t hz hnv => ⟨_, intStr_decimal _, (timestamp_runs hc ha hp hl hl' hn ho).2 ⟨by simp, ?_⟩⟩,
    fun ho' t hz => ⟨_, intStr_decimal _, (timestamp_runs hc ha hp hl hl' hn ho).2 ⟨by simp, ?_⟩⟩, fun ho' =>
    ⟨expErr "Failed to compute UTC+(east) offset." tz.site, (timestamp_runs hc ha hp hl hl' hn ho).2 ⟨by simp, ?_⟩⟩⟩
  · rw [htz]
    show (if eastOk r = true then _ else _ : M (List PNode)) u = _
    rw [if_pos ((eastOk_iff r).2 ho'), hz]
    simp only [hnv]
    rfl
  · rw [htz]
    show (if eastOk r = true then _ else _ : M (List PNode)) u = _
    rw [if_pos ((eastOk_iff r).2 ho'), hz]
    rfl
  · rw [htz]
    show (if eastOk r = true then _ else _ : M (List PNode)) u = _
    rw [if_neg fun h => ho' ((eastOk_iff r).1 h)]
    rfl

/-- C57: with any number of digits the offset is within half a second and half a millionth of
a second of the number given: the difference of `off` and `3600 * n / 10^k` is at
most `(2^32 + 3600) / 2^33`. -/
theorem C57_close (ext : Ext) (c m : PNode) (args vs ts : List PNode) (a tz : Node) (z : Option Int) (n : Int) (k : Nat)
    (s u : St) (hext : NearestFixed ext.fixed)
    (hc : IsCall (str! "date") args c) (ha : Evals ext args s (.ok vs) u) (hp : positional vs = m :: ts)
    (hl : Literal m a) (ht : TimeArg ext ts z) (hn : NamedArgs (fun k v => k = str! "timezone" ∧ ∃ a, v = .number a) vs)
    (ho : Given (str! "timezone") vs (some tz)) (hd : Decimal tz.value n k)
    (hr : -(596523 * 10 ^ k) ≤ n ∧ n ≤ 596523 * 10 ^ k) :
    ∃ off : Int, -((2 ^ 32 + 3600) * 10 ^ k) ≤ 2 ^ 33 * (off * 10 ^ k - 3600 * n) ∧
      2 ^ 33 * (off * 10 ^ k - 3600 * n) ≤ (2 ^ 32 + 3600) * 10 ^ k ∧
      (OffsetOk off → ∀ text, ext.date z off a.value = some text → Evals ext [c] s (.ok [stringAt c text]) u) := by
  obtain ⟨b, h1, h2, h3⟩ := hext _ _ _ hd (by have := pow10_pos k; omega)
  obtain ⟨r, h4⟩ := tz_defined (pow10_pos k) h2 h3 hr
  have htz : timezone ext (some tz) = pure r := by
    unfold timezone
    simp only [h1, h4]
  obtain ⟨h5, h6⟩ := tz_close (pow10_pos k) h2 h3 h4
  refine ⟨r, h5, h6, fun ho' text hdate => (date_runs hc ha hp hl ht hn ho).2 ⟨by simp, ?_⟩⟩
  rw [htz]
  show (if eastOk r = true then _ else _ : M (List PNode)) u = _
  rw [if_pos ((eastOk_iff r).2 ho'), hdate]
  rfl

/-- Outside C57: an offset of 596524 hours or more, in either direction, overflows
and panics (in builds with overflow checks) instead of being an error. -/
theorem C57_overflow_panics (ext : Ext) (c m : PNode) (args vs ts : List PNode) (a tz : Node) (z : Option Int) (n : Int) (k : Nat)
    (s u : St) (hext : NearestFixed ext.fixed)
    (hc : IsCall (str! "date") args c) (ha : Evals ext args s (.ok vs) u) (hp : positional vs = m :: ts)
    (hl : Literal m a) (ht : TimeArg ext ts z) (hn : NamedArgs (fun k v => k = str! "timezone" ∧ ∃ a, v = .number a) vs)
    (ho : Given (str! "timezone") vs (some tz)) (hd : Decimal tz.value n k)
    (hr : n ≤ -(596524 * 10 ^ k) ∨ 596524 * 10 ^ k ≤ n) (hr' : -(2 ^ 30 * 10 ^ k) ≤ n ∧ n ≤ 2 ^ 30 * 10 ^ k) :
    Evals ext [c] s .panic u := by
  obtain ⟨b, h1, h2, h3⟩ := hext _ _ _ hd hr'
  have htz : timezone ext (some tz) = M.panic := by
    unfold timezone
    simp only [h1, tz_overflow (pow10_pos k) h2 h3 hr]
  refine (date_runs hc ha hp hl ht hn ho).2 ⟨by simp, ?_⟩
  rw [htz]
  rfl

/-- C57: a bad date format panics. -/
theorem C57_format_panics (ext : Ext) (c m : PNode) (args vs ts : List PNode) (a : Node) (z : Option Int)
    (s u : St) (hc : IsCall (str! "date") args c) (ha : Evals ext args s (.ok vs) u) (hp : positional vs = m :: ts)
    (hl : Literal m a) (ht : TimeArg ext ts z) (hn : NamedArgs (fun k v => k = str! "timezone" ∧ ∃ a, v = .number a) vs)
    (ho : Given (str! "timezone") vs none) (hz : OffsetOk ext.localOffset) (hf : ext.date z ext.localOffset a.value = none) :
    Evals ext [c] s .panic u := by
  refine (date_runs hc ha hp hl ht hn ho).2 ⟨by simp, ?_⟩
  show (if eastOk ext.localOffset = true then _ else _ : M (List PNode)) u = _
  rw [if_pos ((eastOk_iff _).2 hz), hf]
  rfl

/-- The program works with 32 bits after the point: `0.0001388889` hours, 0.50000004 seconds,
become 596523 / 2^32 hours. -/
def exFixed : Str → Option Int := fun text =>
  if text = str! "5.5" then some (11 * 2 ^ 31) else if text = str! "0.0001388889" then some 596523 else none

/-- A calendar that shows the offset. -/
def exClock : Ext := { exExt with
  fixed := exFixed
  date := fun _ off _ => some (intStr off)
  naiveTime := fun _ _ => some 100000
  zonedTime := fun _ _ => none
  validTime := fun _ => true }

/-- `(%date "" 0 :timezone d)`. -/
def exDate (d : Str) : PNode := exList [exSym (str! "%date"), exStr [], exNum ['0'], exAttr (str! "timezone") (exNum d)]

/-- C57 is false for numbers with 10 digits: `0.0001388889` hours are 0.50000004 seconds, of
which the nearest second is 1, but the offset applied is 0. -/
theorem C57_digits_false : Decimal (str! "0.0001388889") 1388889 10 ∧ ¬ NearestSecond 1388889 10 0 ∧ NearestSecond 1388889 10 1 ∧
    ∀ (ext : Ext) (c m : PNode) (args vs ts : List PNode) (a tz : Node) (z : Option Int) (s u : St), NearestFixed ext.fixed →
      IsCall (str! "date") args c → Evals ext args s (.ok vs) u → positional vs = m :: ts → Literal m a → TimeArg ext ts z →
      NamedArgs (fun k v => k = str! "timezone" ∧ ∃ a, v = .number a) vs → Given (str! "timezone") vs (some tz) →
      tz.value = str! "0.0001388889" → ∀ text, ext.date z 0 a.value = some text → Evals ext [c] s (.ok [stringAt c text]) u := by
  have hd : Decimal (str! "0.0001388889") 1388889 10 :=
    .point [] ['0'] (str! "0001388889") 1 .none (by unfold Digits; decide +kernel) (by unfold Digits; decide +kernel) (by decide)
  refine ⟨hd, by unfold NearestSecond; decide, by unfold NearestSecond; decide, ?_⟩
  intro ext c m args vs ts a tz z s u hext hc ha hp hl ht hn ho hv text hdate
  obtain ⟨b, h1, h2, h3⟩ := hext _ _ _ hd (by decide)
  have hb : b = 596523 := by omega
  subst hb
  obtain ⟨r, hr, h4⟩ : ∃ r, (0 : Int) = r ∧ tzSeconds 596523 = some r := ⟨0, rfl, by decide⟩
  have htz : timezone ext (some tz) = pure r := by
    unfold timezone
    simp only [hv, h1, h4]
  have hoff : eastOk r = true := by rw [← hr]; rfl
  rw [hr] at hdate
  refine (date_runs hc ha hp hl ht hn ho).2 ⟨by simp, ?_⟩
  rw [htz]
  show (if eastOk r = true then _ else _ : M (List PNode)) u = _
  rw [if_pos hoff, hdate]
  rfl

/-- A run of this kind: the call `(%date "" 0 :timezone 0.0001388889)`. -/
example : (∃ b : Int, exClock.fixed (str! "0.0001388889") = some b ∧
      -(10 ^ 10) ≤ 2 * (b * 10 ^ 10 - 1388889 * 2 ^ 32) ∧ 2 * (b * 10 ^ 10 - 1388889 * 2 ^ 32) ≤ 10 ^ 10) ∧
    ∃ t, Evals exClock [exDate (str! "0.0001388889")] exSt (.ok [.string { value := ['0'], site := (exDate (str! "0.0001388889")).site, lw := [] }]) t :=
  ⟨⟨596523, by decide +kernel, by decide, by decide⟩, evals_ok_at 9 (by decide +kernel)⟩

/-- `(%date "" 0 :timezone 5.5)` and `(%timestamp "" "" :timezone 5.5)`: 19800 seconds. -/
example : (∃ t, Evals exClock [exDate (str! "5.5")] exSt
      (.ok [.string { value := str! "19800", site := (exDate (str! "5.5")).site, lw := [] }]) t) ∧
    (∃ t, Evals exClock [exList [exSym (str! "%timestamp"), exStr [], exStr [], exAttr (str! "timezone") (exNum (str! "5.5"))]] exSt
      (.ok [.number { value := str! "80200", site := (exDate (str! "5.5")).site, lw := [] }]) t) ∧
    Decimal (str! "5.5") 55 1 ∧ NearestSecond 55 1 19800 ∧ Decimal (str! "-3") (-3) 0 :=
  ⟨evals_ok_at 9 (by decide +kernel), evals_ok_at 9 (by decide +kernel),
    .point [] ['5'] ['5'] 1 .none (by unfold Digits; decide +kernel) (by unfold Digits; decide +kernel) (by decide),
    by unfold NearestSecond; decide, .whole ['-'] ['3'] (-1) .minus (by unfold Digits; decide +kernel) (by decide)⟩

/-- The hypotheses are met. -/
example : IsCall (str! "date") [exStr [], exNum ['0'], exAttr (str! "timezone") (exNum (str! "5.5"))] (exDate (str! "5.5")) ∧
    TimeArg exClock [exNum ['0']] (some 0) ∧
    Given (str! "timezone") [exStr [], exNum ['0'], exAttr (str! "timezone") (exNum (str! "5.5"))] (some ⟨str! "5.5", (exNum (str! "5.5")).site, (exNum (str! "5.5")).lw⟩) :=
  ⟨.mk _ _ _ _ _ rfl rfl, .at _ _ (parseI64_iff.1 (by decide +kernel)) rfl, .literal _ _ rfl (.number _)⟩

/-- There is a parser as assumed: round `n * 2^32 / 10^k` down after adding a half. -/
example (n : Int) (k : Nat) : ∃ b : Int, -(10 ^ k) ≤ 2 * (b * 10 ^ k - n * 2 ^ 32) ∧ 2 * (b * 10 ^ k - n * 2 ^ 32) ≤ 10 ^ k := by
  have hP := pow10_pos k
  generalize (10 : Int) ^ k = P at *
  refine ⟨(2 * (n * 2 ^ 32) + P) / (2 * P), ?_⟩
  have h1 := Int.emod_add_mul_ediv (2 * (n * 2 ^ 32) + P) (2 * P)
  have h2 := Int.emod_nonneg (2 * (n * 2 ^ 32) + P) (show 2 * P ≠ 0 by omega)
  have h3 := Int.emod_lt_of_pos (2 * (n * 2 ^ 32) + P) (show 0 < 2 * P by omega)
  generalize (2 * (n * 2 ^ 32) + P) % (2 * P) = m at *
  generalize (2 * (n * 2 ^ 32) + P) / (2 * P) = q at *
  have : 2 * P * q = 2 * (q * P) := by rw [Int.mul_assoc, Int.mul_comm P]
  rw [this] at h1
  generalize q * P = X at *
  omega

/-- A calendar with a parser of fixed-point numbers as assumed. -/
def exNear : Ext := { exClock with fixed := nearestFixed }
example : NearestFixed exNear.fixed := nearestFixed_nearest
theorem exHours : Decimal (str! "5.5") 55 1 :=
  .point [] ['5'] ['5'] 1 .none (by unfold Digits; decide +kernel) (by unfold Digits; decide +kernel) (by decide)
theorem exManyHours : Decimal (str! "600000") 600000 0 :=
  .whole [] (str! "600000") 1 .none (by unfold Digits; decide +kernel) (by decide)

/-- The theorems on `(%date "" 0 :timezone 5.5)`, `(%timestamp "" "" :timezone 5.5)`, `(%date "" 0 :timezone 600000)` and
`(%date "" 0)` with a calendar that does not know the format. -/
example (s : St) := C57_date_partial exNear (exDate (str! "5.5")) (exStr []) _ _ [exNum ['0']] _ _ _ 55 1 s s nearestFixed_nearest
  (.mk _ _ _ _ _ rfl rfl) (plain_evals _ _ _ rfl) rfl (.string _) (.at _ 0 (parseI64_iff.1 (by decide +kernel)) rfl)
  (one_namedArg _ _ _ rfl ⟨rfl, _, rfl⟩) (.literal _ _ rfl (.number _)) exHours (by decide) (by decide)
example (s : St) := C57_timestamp_partial exNear
  (exList [exSym (str! "%timestamp"), exStr [], exStr [], exAttr (str! "timezone") (exNum (str! "5.5"))]) (exStr []) (exStr []) _ _ _ _ _
  55 1 s s nearestFixed_nearest (.mk _ _ _ _ _ rfl rfl) (plain_evals _ _ _ rfl) rfl (.string _) (.string _)
  (one_namedArg _ _ _ rfl ⟨rfl, _, rfl⟩) (.literal _ _ rfl (.number _)) exHours (by decide) (by decide)
example (s : St) := C57_close exNear (exDate (str! "5.5")) (exStr []) _ _ [exNum ['0']] _ _ _ 55 1 s s nearestFixed_nearest
  (.mk _ _ _ _ _ rfl rfl) (plain_evals _ _ _ rfl) rfl (.string _) (.at _ 0 (parseI64_iff.1 (by decide +kernel)) rfl)
  (one_namedArg _ _ _ rfl ⟨rfl, _, rfl⟩) (.literal _ _ rfl (.number _)) exHours (by decide)
example (s : St) := C57_overflow_panics exNear (exDate (str! "600000")) (exStr []) _ _ [exNum ['0']] _ _ _ 600000 0 s s
  nearestFixed_nearest (.mk _ _ _ _ _ rfl rfl) (plain_evals _ _ _ rfl) rfl (.string _)
  (.at _ 0 (parseI64_iff.1 (by decide +kernel)) rfl) (one_namedArg _ _ _ rfl ⟨rfl, _, rfl⟩) (.literal _ _ rfl (.number _)) exManyHours
  (by decide) (by decide)
example (s : St) := C57_format_panics exExt (exList [exSym (str! "%date"), exStr [], exNum ['0']]) (exStr []) _ _ [exNum ['0']] _ _ s s
  (.mk _ _ _ _ _ rfl rfl) (plain_evals _ _ _ rfl) rfl (.string _) (.at _ 0 (parseI64_iff.1 (by decide +kernel)) rfl)
  (no_namedArgs _ rfl) (.absent rfl) (by unfold OffsetOk; decide) rfl

end Seam
