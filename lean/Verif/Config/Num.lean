import Verif.Config.Props
import Verif.Basic.Decimal
/- Property C14: integer values in config blocks. -/
namespace Vital.Config
open Vital

-- models: vital/config/config_block.h:448-474 (config_block_get_value_cast_default<R>) for a signed
-- integer type R with range lo..hi: `interpreter >> result`, failure throws, trailing text is ignored
def castInt (lo hi : Int) (v : Str) : Option Int := (readInt lo hi v).map (·.1)

-- models: vital/config/config_block.h:616-637 (config_block_set_value_cast_default<T>) for integers
def intText (n : Int) : Str := intStr n

/-- Range of `int`. -/
def intMin : Int := -2147483648
def intMax : Int := 2147483647

/-- `set_value(key, n)` then `get_value<int>(key)` returns `n`, for every integer type range. -/
theorem C14_int_roundtrip {h h' : Heap} (hr : Reachable h) {b : Nat} {k d : Str} {lo hi : Int} (n : Int)
    (h1 : lo ≤ n) (h2 : n ≤ hi) (hs : setValue h b k (intText n) d = (h', .ok ())) :
    getValueAs (castInt lo hi) h' b k = .ok n := by
  have w := hr.wf
  obtain ⟨r, pre, rb, hv, hrb, hp, hro, rfl⟩ := set_ok w hs
  have pr : Prim h (h.set r (rb.put (pre ++ k) (intText n) d)) := .put hrb hp hro
  rw [getAs_view _ (wf_prim pr w) (hv.prims (.one pr)) (set_same hrb), put_find, if_pos rfl]
  have : castInt lo hi (trim (intText n)) = some n := by
    unfold castInt intText
    rw [intStr_trimmed]
    have := readInt_intStr lo hi n h1 h2 [] (by simp) [] (by simp)
    simp only [List.nil_append, List.append_nil] at this
    rw [this]; rfl
  simp only [this]

/-- `get_value<int>` accepts exactly: blanks, optional sign, digits with an in-range value, then
    anything; otherwise it throws. -/
theorem C14_int_accepts (lo hi : Int) (v : Str) (n : Int) :
    castInt lo hi v = some n ↔
      ∃ ws sg ds f rest, v = ws ++ sg ++ ds ++ rest ∧ (∀ c ∈ ws, isSpace c = true) ∧ SignOf sg f ∧
        (∀ c ∈ ds, isDigit c = true) ∧ ds ≠ [] ∧ (∀ c, rest.head? = some c → isDigit c = false) ∧
        n = f * digitsVal ds ∧ lo ≤ n ∧ n ≤ hi := by
  unfold castInt
  rw [Option.map_eq_some_iff]
  constructor
  · rintro ⟨⟨m, rest⟩, h, rfl⟩
    obtain ⟨ws, sg, ds, f, r⟩ := (readInt_iff lo hi m v rest).1 h
    exact ⟨ws, sg, ds, f, rest, r⟩
  · rintro ⟨ws, sg, ds, f, rest, r⟩
    exact ⟨(n, rest), (readInt_iff lo hi n v rest).2 ⟨ws, sg, ds, f, r⟩, rfl⟩

/-- When the stored text is not acceptable the typed read throws `bad_config_block_cast`. -/
theorem C14_int_rejects {h : Heap} {b : Nat} {k v : Str} {lo hi : Int} (hg : getValue h b k = .ok v)
    (hn : castInt lo hi v = none) : getValueAs (castInt lo hi) h b k = .error (.badCast k v) := by
  unfold getValue getValueAs at hg
  unfold getValueAs
  cases hf : findValue h b k with
  | error e => rw [hf] at hg; cases hg
  | ok o =>
    rw [hf] at hg
    cases o with
    | none => cases hg
    | some x => cases hg; simp only [hn]

example : castInt intMin intMax (c!"2147483648") = none ∧ castInt intMin intMax (c!"-2147483648") = some intMin ∧
    castInt intMin intMax (c!"  +12abc") = some 12 ∧ castInt intMin intMax (c!"abc") = none := by
  refine ⟨?_, ?_, ?_, ?_⟩ <;> decide +kernel

example : intMin ≤ -17 ∧ -17 ≤ intMax ∧ (setValue demo 2 (c!"n") (intText (-17)) []).2 = .ok () := by
  refine ⟨by decide, by decide, by decide +kernel⟩

end Vital.Config
