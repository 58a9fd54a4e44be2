import Verif.Model.HttpDate
import Verif.Spec.HttpDate
import Verif.Lemmas.MessageIo
import Verif.Props.FileService
import Mathlib.Tactic.Common
/-
C64: the date text for a time denotes that time.
-/
namespace Verif.Props.HttpDate
open Verif.HttpDate Verif.Spec.HttpDate

/-! ### The calendar -/

private theorem isLeap_iff (y : Int) : isLeap y = true ↔ leapYear y := by
  simp only [isLeap, leapYear, Bool.and_eq_true, Bool.or_eq_true, decide_eq_true_eq]
  omega

private theorem monthLengths_eq (y : Int) : monthLengths (isLeap y) = days y := by
  unfold monthLengths days
  by_cases h : leapYear y
  · rw [if_pos h, if_pos ((isLeap_iff y).2 h)]
  · rw [if_neg h, if_neg (fun e => h ((isLeap_iff y).1 e))]

private theorem yearStart_succ (y : Int) : yearStart (y + 1) = yearStart y + yearLength y := by
  unfold yearLength yearStart
  by_cases h : leapYear y
  · rw [if_pos ((isLeap_iff y).2 h)]
    unfold leapYear at h
    omega
  · rw [if_neg (fun e => h ((isLeap_iff y).1 e))]
    unfold leapYear at h
    omega

private theorem countYears_spec (n : Nat) : ∀ (y : Int) (d : Nat), yearStart y + d < yearStart (y + n) →
    (countYears n y d).2 < yearLength (countYears n y d).1 ∧
      yearStart (countYears n y d).1 + (countYears n y d).2 = yearStart y + d := by
  induction n with
  | zero => intro y d h; simp at h; omega
  | succ n ih =>
    intro y d h
    rw [countYears]
    split
    · rename_i hd; exact ⟨hd, rfl⟩
    · rename_i hd
      have hs := yearStart_succ y
      have h' : yearStart (y + 1) + (d - yearLength y : Nat) < yearStart (y + 1 + n) := by
        have : y + 1 + (n : Int) = y + (n + 1 : Nat) := by push_cast; omega
        rw [this]
        omega
      obtain ⟨h1, h2⟩ := ih (y + 1) (d - yearLength y) h'
      exact ⟨h1, by omega⟩

private theorem countMonths_spec (l : List Nat) : ∀ d, d < l.sum →
    (countMonths l d).1 < l.length ∧ (countMonths l d).2 < l.getD (countMonths l d).1 0 ∧
      (l.take (countMonths l d).1).sum + (countMonths l d).2 = d := by
  induction l with
  | nil => intro d h; simp at h
  | cons a l ih =>
    intro d h
    rw [countMonths]
    split
    · rename_i hd; simp [hd]
    · rename_i hd
      obtain ⟨h1, h2, h3⟩ := ih (d - a) (by simp at h; omega)
      refine ⟨by simpa using h1, by simpa using h2, ?_⟩
      simp only [List.take_succ_cons, List.sum_cons]
      omega

private theorem sum_days (y : Int) : (days y).sum = yearLength y := by
  unfold yearLength days
  by_cases h : leapYear y
  · rw [if_pos h, if_pos ((isLeap_iff y).2 h)]; rfl
  · rw [if_neg h, if_neg (fun e => h ((isLeap_iff y).1 e))]; rfl

/-- The date of a broken-down time. -/
private def toDate (tm : Tm) : Date := ⟨tm.year, tm.mon + 1, tm.mday, tm.hour, tm.min, tm.sec⟩

private theorem breakDown_spec (t : Int) : (toDate (breakDown t)).Valid ∧ (toDate (breakDown t)).seconds = t ∧
    (breakDown t).wday = (((toDate (breakDown t)).number + 4) % 7).toNat := by
  have hy := countYears_spec 400 (400 * ((t / 86400 + 719528) / 146097)) ((t / 86400 + 719528) % 146097).toNat
    (by rw [show ((400 : Nat) : Int) = 400 from rfl]; unfold yearStart; omega)
  have hs : yearStart (400 * ((t / 86400 + 719528) / 146097)) + ((t / 86400 + 719528) % 146097).toNat = t / 86400 := by
    unfold yearStart; omega
  unfold breakDown toDate
  simp only
  generalize countYears 400 _ _ = p at *
  obtain ⟨y, yd⟩ := p
  simp only at hy ⊢
  obtain ⟨hy1, hy2⟩ := hy
  have hm := countMonths_spec (days y) yd (by rw [sum_days]; exact hy1)
  rw [monthLengths_eq]
  generalize countMonths (days y) yd = q at *
  obtain ⟨m, md⟩ := q
  simp only at hm ⊢
  obtain ⟨hm1, hm2, hm3⟩ := hm
  have hlen : (days y).length = 12 := rfl
  have hnum : (Date.number ⟨y, m + 1, md + 1, (t % 86400).toNat / 3600, (t % 86400).toNat / 60 % 60, (t % 86400).toNat % 60⟩) =
      t / 86400 := by
    unfold Date.number
    simp only [Nat.add_sub_cancel]
    omega
  refine ⟨⟨?_, ?_, ?_, ?_, ?_, ?_, ?_⟩, ?_, ?_⟩
  · simp
  · simp only; omega
  · simp
  · simp only [Nat.add_sub_cancel]; omega
  · simp only; omega
  · simp only; omega
  · simp only; omega
  · unfold Date.seconds
    rw [hnum]
    simp only
    omega
  · rw [hnum]

/-! ### The text -/

private theorem two_pad : ∀ n : Fin 100, two n.val = pad n.val := by decide +kernel

private theorem two_eq {n : Nat} (h : n < 100) : two n = pad n := two_pad ⟨n, h⟩

private theorem weekday_names : ∀ n : Fin 7, weekdays.getD ((n.val + 4) % 7) [] = dayNames.getD n.val [] := by decide +kernel

private theorem wday_eq (n : Int) : weekdays.getD ((n + 4) % 7).toNat [] = dayNames.getD (n % 7).toNat [] := by
  have h := weekday_names ⟨(n % 7).toNat, by omega⟩
  simp only at h
  rw [← h]
  congr 1
  omega

private theorem signed_eq (y : Int) : signed y = yearText y := by
  unfold signed yearText
  split
  · rfl
  · rw [show y.natAbs = y.toNat by omega]

private theorem expand_eq (tm : Tm) : expand tm timeFormat =
    weekdays.getD tm.wday [] ++ (b! ", " ++ (two tm.mday ++ (b! " " ++ (months.getD tm.mon [] ++ (b! " " ++
    (signed tm.year ++ (b! " " ++ (two tm.hour ++ (b! ":" ++ (two tm.min ++ (b! ":" ++ (two tm.sec ++ b! " GMT")))))))))))) := by
  rfl

private theorem days_le (y : Int) (m : Nat) : (days y).getD m 0 ≤ 31 := by
  unfold days
  split
  all_goals
    rcases m with _ | _ | _ | _ | _ | _ | _ | _ | _ | _ | _ | _ | m <;> simp

private theorem expand_text (t : Int) : expand (breakDown t) timeFormat = (toDate (breakDown t)).text := by
  obtain ⟨⟨h1, h2, h3, h4, h5, h6, h7⟩, -, hw⟩ := breakDown_spec t
  have hd := days_le (toDate (breakDown t)).year ((toDate (breakDown t)).month - 1)
  have e1 := two_eq (n := (breakDown t).mday) (by simp only [toDate] at h4 hd; omega)
  have e2 := two_eq (n := (breakDown t).hour) (by simp only [toDate] at h5; omega)
  have e3 := two_eq (n := (breakDown t).min) (by simp only [toDate] at h6; omega)
  have e4 := two_eq (n := (breakDown t).sec) (by simp only [toDate] at h7; omega)
  rw [expand_eq, hw, wday_eq, e1, e2, e3, e4, signed_eq]
  unfold Date.text
  simp only [toDate, List.append_assoc]
  rfl

private theorem pad_length : ∀ n : Fin 100, (pad n.val).length = 2 := by decide +kernel

private theorem pad_inj : ∀ n : Fin 100, ∀ m : Fin 100, pad n.val = pad m.val → n = m := by decide +kernel

private theorem dayNames_length : ∀ n : Fin 7, (dayNames.getD n.val []).length = 3 := by decide +kernel

private theorem monthNames_length : ∀ n : Fin 12, (monthNames.getD n.val []).length = 3 := by decide +kernel

private theorem monthNames_inj : ∀ n : Fin 12, ∀ m : Fin 12, monthNames.getD n.val [] = monthNames.getD m.val [] → n = m := by
  decide +kernel

private theorem year_length' : ∀ a : Fin 100, ∀ b : Fin 100, 10 ≤ a.val → (toDec (100 * a.val + b.val)).length = 4 := by
  decide +kernel

private theorem year_length (n : Nat) (h1 : 1000 ≤ n) (h2 : n < 10000) : (toDec n).length = 4 := by
  have := year_length' ⟨n / 100, by omega⟩ ⟨n % 100, by omega⟩ (by simp only; omega)
  simp only at this
  rwa [Nat.div_add_mod] at this

private theorem yearText_inj {y y' : Int} (h : yearText y = yearText y') : y = y' := by
  have hd : ∀ n m, b! "-" ++ toDec n ≠ toDec m := by
    intro n m e
    have := toDec_isDigit m (c! "-") (by rw [← e]; simp)
    exact absurd this (by decide)
  have hi : ∀ n m, toDec n = toDec m → n = m := fun n m e => by rw [← decVal_toDec n, ← decVal_toDec m, e]
  unfold yearText at h
  split at h <;> split at h
  · have := hi _ _ (List.append_cancel_left h); omega
  · exact absurd h (hd _ _)
  · exact absurd h.symm (hd _ _)
  · have := hi _ _ h; omega

/-- The parts of a text. -/
private theorem text_parts (d : Date) (hv : d.Valid) : ∃ a z : Bytes, d.text = a ++ (yearText d.year ++ z) ∧ a.length = 12 ∧
    z.length = 13 ∧ a = dayNames.getD (d.number % 7).toNat [] ++ (b! ", " ++ (pad d.day ++ (b! " " ++
      (monthNames.getD (d.month - 1) [] ++ b! " ")))) ∧
    z = b! " " ++ (pad d.hour ++ (b! ":" ++ (pad d.minute ++ (b! ":" ++ (pad d.second ++ b! " GMT"))))) := by
  obtain ⟨h1, h2, h3, h4, h5, h6, h7⟩ := hv
  have hd := days_le d.year (d.month - 1)
  refine ⟨_, _, ?_, ?_, ?_, rfl, rfl⟩
  · simp only [Date.text, List.append_assoc]
  · have e1 := dayNames_length ⟨(d.number % 7).toNat, by omega⟩
    have e2 := pad_length ⟨d.day, by omega⟩
    have e3 := monthNames_length ⟨d.month - 1, by omega⟩
    simp only at e1 e2 e3
    simp only [List.length_append, e1, e2, e3]
    rfl
  · have e1 := pad_length ⟨d.hour, by omega⟩
    have e2 := pad_length ⟨d.minute, by omega⟩
    have e3 := pad_length ⟨d.second, by omega⟩
    simp only at e1 e2 e3
    simp only [List.length_append, e1, e2, e3]
    rfl

private theorem text_inj {d e : Date} (hd : d.Valid) (he : e.Valid) (h : d.text = e.text) : d = e := by
  obtain ⟨a, z, h1, ha, hz, ea, ez⟩ := text_parts d hd
  obtain ⟨a', z', h1', ha', hz', ea', ez'⟩ := text_parts e he
  rw [h1, h1'] at h
  obtain ⟨haa, h⟩ := List.append_inj h (by omega)
  obtain ⟨hy, hzz⟩ := List.append_inj' h (by omega)
  have hy := yearText_inj hy
  obtain ⟨p1, p2, p3, p4, p5, p6, p7⟩ := hd
  obtain ⟨q1, q2, q3, q4, q5, q6, q7⟩ := he
  have hdl := days_le d.year (d.month - 1)
  have hel := days_le e.year (e.month - 1)
  have hpl : ∀ n m : Nat, n < 100 → m < 100 → (pad n).length = (pad m).length := fun n m hn hm => by
    rw [pad_length ⟨n, hn⟩, pad_length ⟨m, hm⟩]
  have hpi : ∀ n m : Nat, n < 100 → m < 100 → pad n = pad m → n = m := fun n m hn hm e =>
    congrArg Fin.val (pad_inj ⟨n, hn⟩ ⟨m, hm⟩ e)
  rw [ea, ea'] at haa
  rw [ez, ez'] at hzz
  obtain ⟨-, haa⟩ := List.append_inj haa (by
    rw [dayNames_length ⟨(d.number % 7).toNat, by omega⟩, dayNames_length ⟨(e.number % 7).toNat, by omega⟩])
  obtain ⟨hday, haa⟩ := List.append_inj (List.append_cancel_left haa) (hpl _ _ (by omega) (by omega))
  have hmon := List.append_cancel_right (List.append_cancel_left haa)
  obtain ⟨hh, hzz⟩ := List.append_inj (List.append_cancel_left hzz) (hpl _ _ (by omega) (by omega))
  obtain ⟨hmi, hzz⟩ := List.append_inj (List.append_cancel_left hzz) (hpl _ _ (by omega) (by omega))
  have hs := List.append_cancel_right (List.append_cancel_left hzz)
  have hmon := congrArg Fin.val (monthNames_inj ⟨d.month - 1, by omega⟩ ⟨e.month - 1, by omega⟩ hmon)
  have hday := hpi _ _ (by omega) (by omega) hday
  have hh := hpi _ _ (by omega) (by omega) hh
  have hmi := hpi _ _ (by omega) (by omega) hmi
  have hs := hpi _ _ (by omega) (by omega) hs
  simp only at hmon
  obtain ⟨_, _, _, _, _, _⟩ := d
  obtain ⟨_, _, _, _, _, _⟩ := e
  simp only at *
  simp only [Date.mk.injEq]
  refine ⟨hy, ?_, hday, hh, hmi, hs⟩
  omega

private theorem dateString_eq {t : Int} {s : Bytes} (h : dateString t = some s) :
    s = (toDate (breakDown t)).text ∧ -2 ^ 31 ≤ (breakDown t).year - 1900 ∧ (breakDown t).year - 1900 < 2 ^ 31 := by
  unfold dateString gmtime at h
  simp only at h
  split at h
  · rename_i hy
    refine ⟨?_, hy⟩
    simp only [Option.map_some, Option.some.injEq] at h
    rw [← h, strftime, expand_text, if_pos]
    obtain ⟨a, z, h1, ha, hz, -, -⟩ := text_parts _ (breakDown_spec t).1
    rw [h1, List.length_append, List.length_append, ha, hz]
    have hl : (yearText (breakDown t).year).length ≤ 21 := by
      unfold yearText
      have := toDec_length (n := (breakDown t).year.natAbs) (by omega)
      split
      · simp only [List.length_append]
        have h1 : (b! "-").length = 1 := rfl
        omega
      · omega
    have : (toDate (breakDown t)).year = (breakDown t).year := rfl
    rw [this]
    omega
  · simp at h

/-! ### The properties -/

/-- C64: the text made for a time is the one of RFC 1123 for the date and time of day, in the Gregorian calendar and with
    the right day of the week, that lies that many seconds after 1 January 1970. -/
theorem denotes {t : Int} {s : Bytes} (h : dateString t = some s) : Denotes s t :=
  ⟨toDate (breakDown t), (breakDown_spec t).1, (breakDown_spec t).2.1, (dateString_eq h).1⟩

example : dateString 784111777 = some (b! "Sun, 06 Nov 1994 08:49:37 GMT") ∧
    dateString 951782400 = some (b! "Tue, 29 Feb 2000 00:00:00 GMT") ∧
    dateString (-1) = some (b! "Wed, 31 Dec 1969 23:59:59 GMT") := by decide +kernel

/-- C64: a text denotes one time only. -/
theorem denotes_unique {s : Bytes} {t t' : Int} (h : Denotes s t) (h' : Denotes s t') : t = t' := by
  obtain ⟨d, hv, hs, ht⟩ := h
  obtain ⟨e, hv', hs', ht'⟩ := h'
  rw [← hs, ← hs', text_inj hv hv' (ht.symm.trans ht')]

/-- C64: different times have different texts. -/
theorem injective {t t' : Int} (h : dateString t ≠ none) (he : dateString t = dateString t') : t = t' := by
  cases hs : dateString t with
  | none => exact absurd hs h
  | some s => exact denotes_unique (denotes hs) (denotes (he ▸ hs))

private theorem yearStart_mono {y y' : Int} (h : y ≤ y') : yearStart y ≤ yearStart y' := by
  unfold yearStart; omega

private theorem year_bounds (t : Int) :
    yearStart (breakDown t).year * 86400 ≤ t ∧ t < yearStart ((breakDown t).year + 1) * 86400 := by
  obtain ⟨⟨h1, h2, h3, h4, h5, h6, h7⟩, hs, -⟩ := breakDown_spec t
  have hsum : ((days (toDate (breakDown t)).year).take ((toDate (breakDown t)).month - 1)).sum + (toDate (breakDown t)).day ≤
      (days (toDate (breakDown t)).year).sum := by
    generalize (toDate (breakDown t)).year = y at *
    generalize (toDate (breakDown t)).month - 1 = m at *
    have : ((days y).take m).sum + ((days y).drop m).sum = (days y).sum := by
      rw [← List.sum_append, List.take_append_drop]
    have h8 : (days y).getD m 0 ≤ ((days y).drop m).sum := by
      by_cases hm : m < (days y).length
      · rw [List.drop_eq_getElem_cons hm, List.sum_cons, List.getD_eq_getElem?_getD, List.getElem?_eq_getElem hm, Option.getD_some]; omega
      · rw [List.getD_eq_getElem?_getD, List.getElem?_eq_none (by omega), Option.getD_none]; omega
    omega
  rw [sum_days] at hsum
  have hn := yearStart_succ (breakDown t).year
  have hy : (toDate (breakDown t)).year = (breakDown t).year := rfl
  unfold Date.seconds Date.number at hs
  rw [hy] at hsum hs
  omega

/-- C64: the text exists for the times whose year, counted from 1900, fits 32 bits. For the others the null pointer
    that `gmtime` returns is followed. -/
theorem exists_iff (t : Int) : dateString t ≠ none ↔ -67768040609740800 ≤ t ∧ t < 67768036191676800 := by
  obtain ⟨h1, h2⟩ := year_bounds t
  have hm1 : ∀ y, (breakDown t).year ≤ y → yearStart ((breakDown t).year + 1) ≤ yearStart (y + 1) :=
    fun y h => yearStart_mono (by omega)
  have hm2 : ∀ y, y ≤ (breakDown t).year → yearStart y ≤ yearStart (breakDown t).year := fun y h => yearStart_mono h
  have e1 : yearStart (-2 ^ 31 + 1900) * 86400 = -67768040609740800 := by decide +kernel
  have e2 : yearStart (2 ^ 31 + 1900) * 86400 = 67768036191676800 := by decide +kernel
  unfold dateString gmtime
  simp only
  rw [ne_eq, Option.map_eq_none_iff]
  constructor
  · intro h
    split at h
    · rename_i hy
      have a1 := hm2 (-2 ^ 31 + 1900) (by omega)
      have a2 := hm1 (2 ^ 31 + 1900 - 1) (by omega)
      rw [show ((2 : Int) ^ 31 + 1900 - 1 + 1) = 2 ^ 31 + 1900 by omega] at a2
      omega
    · exact absurd rfl h
  · rintro ⟨b1, b2⟩
    rw [if_pos]
    · simp
    · constructor
      · by_contra hc
        have a1 := hm1 (-2 ^ 31 + 1900 - 1) (by omega)
        rw [show (-(2 : Int) ^ 31 + 1900 - 1 + 1) = -2 ^ 31 + 1900 by omega] at a1
        omega
      · by_contra hc
        have a2 := hm2 (2 ^ 31 + 1900) (by omega)
        omega

/-- C64: from the year 1000 to the year 9999 it has 29 characters. -/
theorem length_29 {t : Int} {s : Bytes} (h : dateString t = some s) (h1 : -30610224000 ≤ t) (h2 : t < 253402300800) :
    s.length = 29 := by
  obtain ⟨b1, b2⟩ := year_bounds t
  have e1 : yearStart 1000 * 86400 = -30610224000 := by decide +kernel
  have e2 : yearStart 10000 * 86400 = 253402300800 := by decide +kernel
  have hlo : 1000 ≤ (breakDown t).year := by
    by_contra hc
    have := yearStart_mono (y := (breakDown t).year + 1) (y' := 1000) (by omega)
    omega
  have hhi : (breakDown t).year < 10000 := by
    by_contra hc
    have := yearStart_mono (y := 10000) (y' := (breakDown t).year) (by omega)
    omega
  rw [(dateString_eq h).1]
  obtain ⟨a, z, h1, ha, hz, -, -⟩ := text_parts _ (breakDown_spec t).1
  rw [h1, List.length_append, List.length_append, ha, hz]
  have hy : (toDate (breakDown t)).year = (breakDown t).year := rfl
  have hl : (yearText (breakDown t).year).length = 4 := by
    rw [yearText, if_neg (by omega)]
    exact year_length _ (by omega) (by omega)
  rw [hy, hl]

/-- A file server that uses these texts. (For times beyond the range, which crash it, any text may stand.) -/
def DateOk (c : Verif.FileService.Cfg) : Prop := ∀ t s, dateString t = some s → c.date t = s

/-- C47 and C64: with cache=0 or cache=1, a client that sends the Last-Modified text of time `t` is told that the file has
    not changed only if the file's time of modification is exactly `t`. -/
theorem not_modified_time {c : Verif.FileService.Cfg} (hc : c.cache ≤ 1) (hdate : DateOk c) (hd : FileService.DirOk c)
    {past : List Verif.FileService.Fs} {s : Verif.FileService.St} (hh : Verif.Spec.FileService.Hist c past s)
    (r : Verif.FileService.Req) (now : Int) {lm : Bytes} (ho : (Verif.FileService.handle c s r now).1 = .headers 304 lm)
    (t : Int) (hr : dateString t = some r.ifModifiedSince) :
    ∃ f, s.fs (Verif.Spec.FileService.requested c (Verif.FileService.relative c r.resource)) = some (.file f) ∧
      (dateString f.mtime ≠ none → f.mtime = t) := by
  obtain ⟨f, h1, h2⟩ := FileService.not_modified hd hh hc r now ho
  refine ⟨f, h1, fun hn => ?_⟩
  cases hs : dateString f.mtime with
  | none => exact absurd hs hn
  | some x =>
    rw [hdate _ _ hs] at h2
    exact injective hn (by rw [hr, hs, h2])

/-- Such a server, and a request that it answers with 304. -/
def datedCfg : Verif.FileService.Cfg := { FileService.exampleCfg with date := fun t => (dateString t).getD [] }

def sinceRequest : Verif.FileService.Req :=
  { method := b! "GET", resource := b! "/files/index.html", ifModifiedSince := b! "Thu, 01 Jan 1970 00:16:40 GMT" }

example : DateOk datedCfg := fun t s h => by simp [datedCfg, h]
example : dateString 1000 = some sinceRequest.ifModifiedSince := by decide +kernel
example : (Verif.FileService.handle datedCfg { fs := FileService.exampleFs } sinceRequest 0).1 =
    .headers 304 (b! "Thu, 01 Jan 1970 00:16:40 GMT") := by decide +kernel

end Verif.Props.HttpDate
