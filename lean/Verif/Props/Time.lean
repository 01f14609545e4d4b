import Verif.Lemmas.Time
import Verif.Lemmas.Scan

/-!
# C88: times in text columns

`lib` is the standard library; `tag i` stands for the time that is `i` nanoseconds after 1970-01-01 00:00:00 UTC.
-/

namespace Verif.Props

open Verif Verif.Spec Verif.Spec.Time
open Verif.Scan (Std Dest Src scanTime layout)
open Verif.Spec.Scan (put putNull)
open Verif.Time (IsGo parse_of parse_sound parse_time date_of valid_lt number_inj number_numeral)

private theorem scan_iff {lib : Std} {tag : Int → Nat} (hl : IsGo lib tag) (z : Nat) (d d' : Dest Nat) (s : Bytes) :
    scanTime lib z d (.str s) = .ok d' ↔ ∃ i, Time.parseTime s = some i ∧ d' = put d (tag i) := by
  simp only [scanTime, Scan.parseTime, hl.parseTime]
  cases h : Time.parseTime s with
  | none => simp [Scan.storeOpt]
  | some i => simp [Scan.storeOpt, Scan.store_eq, eq_comm]

/-- C88: which texts are read, and as which times: those of a day, of a day and a time of day, and those of RFC 3339,
with the liberties of `Lenient`.  Everything else is an error. -/
theorem C88_iff {lib : Std} {tag : Int → Nat} (hl : IsGo lib tag) (z : Nat) (d d' : Dest Nat) (s : Bytes) :
    scanTime lib z d (.str s) = .ok d' ↔ ∃ i, (Denotes s i ∨ Lenient s i) ∧ d' = put d (tag i) := by
  rw [scan_iff hl]
  exact ⟨fun ⟨i, h, e⟩ => ⟨i, parse_sound h, e⟩, fun ⟨i, h, e⟩ => ⟨i, parse_of h, e⟩⟩

/-- C88: text and bytes are read alike. -/
theorem C88_bytes (lib : Std) (z : Nat) (d : Dest Nat) (s : Bytes) :
    scanTime lib z d (.bytes s) = scanTime lib z d (.str s) := rfl

/-- C88: a text stands for one time. -/
theorem C88_unique {s : Bytes} {i j : Int} (hi : Denotes s i ∨ Lenient s i) (hj : Denotes s j ∨ Lenient s j) : i = j := by
  have := (parse_of hi).symm.trans (parse_of hj)
  injection this

/-- A library for which all of this holds, in which different times have different numbers. -/
def goTimes : Std where
  fmtFloat _ := []
  timeString _ := []
  timeText _ := none
  parseFloat _ _ := none
  toFloat _ n := n
  intToFloat _ _ := 0
  parseTime l s := (Time.parse l s).map (fun i => if 0 ≤ i then 2 * i.toNat else 2 * (-i).toNat + 1)
  unix n := if 0 ≤ n * 1000000000 then 2 * (n * 1000000000).toNat else 2 * (-(n * 1000000000)).toNat + 1

def goTag (i : Int) : Nat := if 0 ≤ i then 2 * i.toNat else 2 * (-i).toNat + 1

theorem goTimes_isGo : IsGo goTimes goTag := ⟨fun _ => rfl, fun _ => rfl⟩

theorem goTag_inj (a b : Int) (h : goTag a = goTag b) : a = b := by
  unfold goTag at h
  by_cases ha : 0 ≤ a <;> by_cases hb : 0 ≤ b <;> simp only [ha, hb, if_true, if_false] at h <;> omega

/-- The 29th of February 2024, as text of a database and in RFC 3339. -/
example : Date.text ⟨2024, 2, 29⟩ = "2024-02-29".toUTF8.toList := by decide +kernel

example (z : Nat) (d : Dest Nat) :
    scanTime goTimes z d (.str "2024-02-29 12:30:45.5".toUTF8.toList) = .ok (put d (goTag 1709209845500000000)) := by
  rw [C88_iff goTimes_isGo]
  refine ⟨_, .inl ?_, rfl⟩
  have := Denotes.time (d := ⟨2024, 2, 29⟩) (c := ⟨12, 30, 45⟩) ⟨by decide, by decide, by decide, by decide, by decide +kernel⟩
    ⟨by decide, by decide, by decide⟩ (.some (.one (d := 5) (by decide)))
  rwa [show instant ⟨2024, 2, 29⟩ ⟨12, 30, 45⟩ (5 * 1000000000 / 10 ^ [UInt8.ofNat (48 + 5)].length) =
    1709209845500000000 by decide +kernel, show (Date.text ⟨2024, 2, 29⟩ ++ 32 :: (Clock.text ⟨12, 30, 45⟩ ++
    [46, UInt8.ofNat (48 + 5)]) : Bytes) = "2024-02-29 12:30:45.5".toUTF8.toList by decide +kernel] at this

example : Time.parseTime "2024-02-29T12:30:45.5+02:00".toUTF8.toList = some 1709202645500000000 ∧
    Time.parseTime "2024-02-29T9:30:45,5Z".toUTF8.toList = some 1709199045500000000 ∧
    Time.parseTime "2024-02-29 9:30:45".toUTF8.toList = none ∧
    Time.parseTime "2024-02-29\t12:30:45".toUTF8.toList = none ∧
    Time.parseTime "2024-02-29T12:30:45".toUTF8.toList = none ∧
    Time.parseTime "1969-12-31".toUTF8.toList = some (-86400000000000) ∧
    Time.parseTime "0000-01-01".toUTF8.toList = some (-62167219200000000000) := by decide +kernel

/-! ## Every time has a text -/

/-- The first moment of the year 0, and the one after the last of the year 9999. -/
def firstMoment : Int := instant ⟨0, 1, 1⟩ ⟨0, 0, 0⟩ 0
def afterLast : Int := instant ⟨9999, 12, 31⟩ ⟨23, 59, 59⟩ 1000000000

private theorem numeral_nine (n : Nat) (h : n < 1000000000) : ∃ ds, Numeral 10 ds n ∧ ds.length = 9 := by
  have key : ∀ k n, n < 10 ^ (k + 1) → ∃ ds, Numeral 10 ds n ∧ ds.length = k + 1 := by
    intro k
    induction k with
    | zero => intro n h; exact ⟨_, .one (by simpa using h), rfl⟩
    | succ k ih =>
      intro n h
      obtain ⟨ds, h1, h2⟩ := ih (n / 10) (by rw [Nat.pow_succ] at h; omega)
      have := Numeral.snoc h1 (show n % 10 < 10 by omega)
      rw [show 10 * (n / 10) + n % 10 = n by omega] at this
      exact ⟨_, this, by simp [h2]⟩
  exact key 8 n h

private theorem range_eq : firstMoment = -((beforeYear 1970 : Nat) : Int) * 86400000000000 ∧
    afterLast = ((beforeYear 10000 : Nat) - (beforeYear 1970 : Nat) : Int) * 86400000000000 := by
  have e1 : beforeYear 1970 = 719528 := by have := Time.beforeYear_eq 1970; omega
  have e2 : beforeYear 9999 = 3652060 := by have := Time.beforeYear_eq 9999; omega
  have e3 : beforeYear 10000 = 3652425 := by have := Time.beforeYear_eq 10000; omega
  constructor
  · have h0 : beforeYear 0 = 0 := rfl
    have hm : beforeMonth 0 1 = 0 := rfl
    simp only [firstMoment, instant, Date.number, Clock.seconds, e1, h0, hm]; omega
  · have : beforeMonth 9999 12 = 334 := by decide
    simp only [afterLast, instant, Date.number, Clock.seconds, e1, e2, e3, this]; omega

/-- C88: every time of the years 0 to 9999 is the time of a text with a day and a time of day, and no other time is. -/
theorem C88_every_iff (i : Int) :
    (firstMoment ≤ i ∧ i < afterLast) ↔
      ∃ (d : Date) (c : Clock) (f : Bytes) (ns : Nat), d.Valid ∧ c.Valid ∧ Fraction 46 f ns ∧ instant d c ns = i := by
  obtain ⟨r1, r2⟩ := range_eq
  rw [r1, r2]
  constructor
  · rintro ⟨h1, h2⟩
    have hk : ∃ k : Nat, (k : Int) = i + (beforeYear 1970 : Nat) * 86400000000000 :=
      ⟨(i + (beforeYear 1970 : Nat) * 86400000000000).toNat, by omega⟩
    obtain ⟨k, hk⟩ := hk
    obtain ⟨d, hd, hn⟩ := date_of (k / 86400000000000) (by omega)
    obtain ⟨ds, hds, hlen⟩ := numeral_nine (k % 1000000000) (by omega)
    have hf := Fraction.some (sep := 46) hds
    rw [hlen, Nat.mul_div_cancel _ (by decide)] at hf
    refine ⟨d, ⟨k / 3600000000000 % 24, k / 60000000000 % 60, k / 1000000000 % 60⟩, _, _, hd,
      ⟨by simp only; omega, by simp only; omega, by simp only; omega⟩, hf, ?_⟩
    simp only [instant, Date.number, hn, Clock.seconds]
    have : k = k / 86400000000000 * 86400000000000 + (k / 3600000000000 % 24 * 3600 + k / 60000000000 % 60 * 60 +
        k / 1000000000 % 60) * 1000000000 + k % 1000000000 := by omega
    omega
  · rintro ⟨d, c, f, ns, hd, ⟨c1, c2, c3⟩, hf, rfl⟩
    have hns : ns < 1000000000 := by
      cases hf with
      | none => decide
      | @some ds n hn =>
        obtain ⟨_, h2, rfl⟩ := Time.numeral_number hn
        have := Time.number_lt ds h2
        rw [Nat.div_lt_iff_lt_mul (Nat.pow_pos (by decide)), Nat.mul_comm]
        exact Nat.mul_lt_mul_of_pos_left this (by decide)
    have := valid_lt hd
    have hc : c.seconds < 86400 := by unfold Clock.seconds; omega
    simp only [instant, Date.number]
    omega

/-- C88: days are counted right: no two days of the calendar have the same number. -/
theorem C88_day_unique {d e : Date} (hd : d.Valid) (he : e.Valid) (h : d.number = e.number) : d = e :=
  number_inj hd he h

/-! ## Texts without a zone -/

/-- The text of the time `i` as clocks show it that are `off` seconds ahead of UTC. -/
inductive WallText (off : Int) (i : Int) : Bytes → Prop
  | mk {d : Date} {c : Clock} {f ns} : d.Valid → c.Valid → Fraction 46 f ns →
      instant d c ns = i + off * 1000000000 → WallText off i (d.text ++ 32 :: (c.text ++ f))

/-- C88: a text without a zone is read as if it came from a clock that shows UTC. -/
theorem C88_wall {lib : Std} {tag : Int → Nat} (hl : IsGo lib tag) (z : Nat) (d : Dest Nat) {off i : Int} {s : Bytes}
    (h : WallText off i s) : scanTime lib z d (.str s) = .ok (put d (tag (i + off * 1000000000))) := by
  obtain ⟨hd, hc, hf, e⟩ := h
  rw [scan_iff hl]
  exact ⟨_, parse_time hd hc hf, by rw [e]⟩

/-- C88: so it is read right if and only if the clock does show UTC: a driver that is set to another zone and hands
out text gives times that are off by the distance of that zone. -/
theorem C88_wall_iff_partial {lib : Std} {tag : Int → Nat} (hl : IsGo lib tag)
    (hi : ∀ a b, tag a = tag b → a = b) (z : Nat) (d : Dest Nat) {off i : Int} {s : Bytes} (h : WallText off i s) :
    scanTime lib z d (.str s) = .ok (put d (tag i)) ↔ off = 0 := by
  rw [C88_wall hl z d h]
  constructor
  · intro e
    have : tag (i + off * 1000000000) = tag i := by
      cases d with
      | val x => simpa [put] using e
      | ptr x => simpa [put] using e
    have := hi _ _ this
    omega
  · rintro rfl; simp

/-- Midnight in UTC, as a clock in Tokyo shows it, is read as nine in the morning. -/
example : WallText 32400 1704067200000000000 "2024-01-01 09:00:00".toUTF8.toList := by
  have := WallText.mk (off := 32400) (i := 1704067200000000000) (d := ⟨2024, 1, 1⟩) (c := ⟨9, 0, 0⟩)
    ⟨by decide, by decide, by decide, by decide, by decide +kernel⟩ ⟨by decide, by decide, by decide⟩ .none
    (by decide +kernel)
  rwa [show (Date.text ⟨2024, 1, 1⟩ ++ 32 :: (Clock.text ⟨9, 0, 0⟩ ++ []) : Bytes) =
    "2024-01-01 09:00:00".toUTF8.toList by decide +kernel] at this

/-! ## Texts that are never read -/

/-- C88: a space before the time of day, and a zone after it, is never read: that is what SQLite's driver writes for
a time. -/
theorem C88_space_zone_never {lib : Std} {tag : Int → Nat} (hl : IsGo lib tag) (z : Nat) (dst : Dest Nat) {d : Date}
    {c : Clock} {f zt : Bytes} {ns : Nat} {off : Int} (hd : d.Valid) (hc : c.Valid) (hf : Fraction 46 f ns)
    (hz : Zone 24 60 zt off) : scanTime lib z dst (.str (d.text ++ 32 :: (c.text ++ (f ++ zt)))) = .err := by
  have hnf := Time.zone_nofrac hz
  have hne : zt ≠ [] := by cases hz <;> simp
  have hsh : Time.shape (c.text ++ (f ++ zt)) = some (f ++ zt) :=
    Time.shape_iff.2 ⟨c, by have := hc.1; omega, by have := hc.2.1; omega, by have := hc.2.2; omega, by
      simp [Clock.text]⟩
  obtain ⟨b, t, rfl⟩ : ∃ b t, zt = b :: t := by
    cases zt with
    | nil => exact absurd rfl hne
    | cons b t => exact ⟨b, t, rfl⟩
  have hb := hnf b t rfl
  have hk : Time.kind (some (f ++ b :: t)) = 3 := by
    cases hf with
    | none => simp [Time.kind, Time.lit, hb.1]
    | @some ds n hn => simp [Time.kind, Time.lit, hb.2.2]
  have hlay : layout (d.text ++ 32 :: (c.text ++ (f ++ b :: t))) = 3 := by
    rw [Time.layout_cons hd, hsh, hk]; decide
  have : Time.parseTime (d.text ++ 32 :: (c.text ++ (f ++ b :: t))) = none := by
    unfold Time.parseTime
    rw [hlay]
    simp [Time.parse, Time.date_text hd, Time.lit]
  simp only [scanTime, Scan.parseTime, hl.parseTime, this, Option.map_none, Scan.storeOpt]

/-- C88: a day that is not in the calendar is never read, whatever follows it: the 30th of February, and the day
`0000-00-00` that databases use for no day. -/
theorem C88_no_day_never {lib : Std} {tag : Int → Nat} (hl : IsGo lib tag) (z : Nat) (dst : Dest Nat) {d : Date}
    (hy : d.year ≤ 9999) (hm : d.month < 100) (hk : d.day < 100) (hd : ¬ d.Valid) (r : Bytes) :
    scanTime lib z dst (.str (d.text ++ r)) = .err := by
  have h0 : Time.date (d.text ++ r) = none := by
    have hv : ¬ (1 ≤ d.month ∧ d.month ≤ 12 ∧ 1 ≤ d.day ∧ d.day ≤ Time.daysIn d.month d.year) := by
      rintro ⟨h1, h2, h3, h4⟩
      rw [Time.daysIn_eq h1 h2] at h4
      exact hd ⟨hy, h1, h2, h3, h4⟩
    simp only [Time.date, Date.text, List.append_assoc, List.cons_append, Time.four_dddd hy, Time.lit_cons,
      Time.two_dd hm, Time.two_dd hk, bind, Option.bind, if_neg hv]
  have : Time.parseTime (d.text ++ r) = none := by simp [Time.parseTime, Time.parse, h0]
  simp only [scanTime, Scan.parseTime, hl.parseTime, this, Option.map_none, Scan.storeOpt]

example : ¬ Date.Valid ⟨0, 0, 0⟩ ∧ ¬ Date.Valid ⟨2023, 2, 29⟩ ∧ ¬ Date.Valid ⟨1900, 2, 29⟩ ∧
    Date.Valid ⟨2000, 2, 29⟩ := by unfold Date.Valid; decide +kernel

example : Date.text ⟨0, 0, 0⟩ ++ " 00:00:00".toUTF8.toList = "0000-00-00 00:00:00".toUTF8.toList := by decide +kernel

example : Zone 24 60 "+00:00".toUTF8.toList 0 := by
  have := Zone.east (maxHour := 24) (maxMinute := 60) (h := 0) (m := 0) (by decide) (by decide)
  rwa [show (43 :: (dd 0 ++ 58 :: dd 0) : Bytes) = "+00:00".toUTF8.toList by decide +kernel] at this

/-! ## What is not text -/

/-- C88: a number is a number of seconds since 1970. -/
theorem C88_number {lib : Std} {tag : Int → Nat} (hl : IsGo lib tag) (z : Nat) (d : Dest Nat) (n : Int) :
    scanTime lib z d (.int64 n) = .ok (put d (tag (n * 1000000000))) := by
  simp only [scanTime, hl.unix, Scan.store_eq]

/-- C88: times are stored as they are, whatever the library does. -/
theorem C88_time (lib : Std) (z : Nat) (d : Dest Nat) (t : Nat) : scanTime lib z d (.time t) = .ok (put d t) := by
  simp only [scanTime, Scan.store_eq]

end Verif.Props
