import Verif.Logger.Model
/- Property C99: names taken from a function signature. -/
namespace Vital.Log
open Vital Vital.Sys

theorem lastColons_none {s : Str} (h : ':' ∉ s) : lastColons s = none := by
  induction s with
  | nil => rfl
  | cons c r ih =>
    have hc : c ≠ ':' := fun e => h (by simp [e])
    unfold lastColons
    rw [ih (fun hm => h (by simp [hm]))]
    simp [hc]

/-- The last "::" of a text in which no colon follows. -/
theorem lastColons_at (a : Str) {b : Str} (hb : ':' ∉ b) : lastColons (a ++ c!"::" ++ b) = some (a, b) := by
  induction a with
  | nil =>
    show lastColons (':' :: ':' :: b) = _
    have h1 : lastColons (':' :: b) = none := by
      unfold lastColons
      rw [lastColons_none hb]
      cases b with
      | nil => rfl
      | cons d b =>
        have hd : d ≠ ':' := fun e => hb (by simp [e])
        simp [hd]
    unfold lastColons
    rw [h1]
    simp
  | cons c a ih =>
    show lastColons (c :: (a ++ c!"::" ++ b)) = _
    unfold lastColons
    rw [ih]

theorem dropParams_at {s : Str} (h : '(' ∉ s) (t : Str) : dropParams (s ++ '(' :: t) = s := by
  unfold dropParams
  induction s with
  | nil => simp
  | cons c s ih =>
    have hc : (c != '(') = true := by simp only [bne_iff_ne, ne_eq]; intro e; exact h (by simp [e])
    simp only [List.cons_append, List.takeWhile_cons, hc, if_true]
    rw [ih (fun hm => h (by simp [hm]))]

theorem dropType_at (a : Str) {b : Str} (hb : ' ' ∉ b) : dropType (a ++ ' ' :: b) = b := by
  unfold dropType afterLast
  have e : (a ++ ' ' :: b).reverse = b.reverse ++ ' ' :: a.reverse := by simp
  rw [e]
  have hr : ' ' ∉ b.reverse := by simpa using hb
  have : ∀ l : Str, ' ' ∉ l → (l ++ ' ' :: a.reverse).takeWhile (· != ' ') = l := by
    intro l
    induction l with
    | nil => intro _; simp
    | cons c l ih =>
      intro h
      have hc : (c != ' ') = true := by simp only [bne_iff_ne, ne_eq]; intro e; exact h (by simp [e])
      simp only [List.cons_append, List.takeWhile_cons, hc, if_true]
      rw [ih (fun hm => h (by simp [hm]))]
  rw [this _ hr]
  simp

theorem dropType_none {b : Str} (hb : ' ' ∉ b) : dropType b = b := by
  unfold dropType afterLast
  have hr : ' ' ∉ b.reverse := by simpa using hb
  have : ∀ l : Str, ' ' ∉ l → l.takeWhile (· != ' ') = l := by
    intro l
    induction l with
    | nil => intro _; rfl
    | cons c l ih =>
      intro h
      have hc : (c != ' ') = true := by simp only [bne_iff_ne, ne_eq]; intro e; exact h (by simp [e])
      simp only [List.takeWhile_cons, hc, if_true]
      rw [ih (fun hm => h (by simp [hm]))]
  rw [this _ hr]
  simp

/-- A name in a signature: no blank, no parenthesis. -/
def PlainName (s : Str) : Prop := ' ' ∉ s ∧ '(' ∉ s

/-- C99: for the signature of a member function, `type class::method(parameters`, the class (with all its qualifiers) and the method
    are returned; the type may be anything without a parenthesis. -/
theorem C99_member (file : Str) (line : Int) {type cls meth params : Str} (ht : '(' ∉ type) (hc : PlainName cls) (hm : PlainName meth) (hm' : ':' ∉ meth) :
    let l : Location := ⟨file, type ++ c!" " ++ cls ++ c!"::" ++ meth ++ c!"(" ++ params, line⟩
    l.methodName = meth ∧ l.className = cls := by
  intro l
  have hp : dropParams l.method = type ++ c!" " ++ cls ++ c!"::" ++ meth := by
    have : l.method = (type ++ c!" " ++ cls ++ c!"::" ++ meth) ++ '(' :: params := by simp [l]
    rw [this]
    exact dropParams_at (by simp [ht, hc.2, hm.2]) params
  constructor
  · unfold Location.methodName
    simp only [hp, lastColons_at (type ++ c!" " ++ cls) hm']
    exact dropType_none hm.1
  · unfold Location.className
    simp only [hp]
    have : dropType (type ++ c!" " ++ cls ++ c!"::" ++ meth) = cls ++ c!"::" ++ meth := by
      have e : type ++ c!" " ++ cls ++ c!"::" ++ meth = type ++ ' ' :: (cls ++ c!"::" ++ meth) := by simp
      rw [e]
      exact dropType_at type (by simp [hc.1, hm.1])
    rw [this, lastColons_at cls hm']

/-- For a constructor there is no type. -/
theorem C99_constructor (file : Str) (line : Int) {cls meth params : Str} (hc : PlainName cls) (hm : PlainName meth) (hm' : ':' ∉ meth) :
    let l : Location := ⟨file, cls ++ c!"::" ++ meth ++ c!"(" ++ params, line⟩
    l.methodName = meth ∧ l.className = cls := by
  intro l
  have hp : dropParams l.method = cls ++ c!"::" ++ meth := by
    have : l.method = (cls ++ c!"::" ++ meth) ++ '(' :: params := by simp [l]
    rw [this]
    exact dropParams_at (by simp [hc.2, hm.2]) params
  constructor
  · unfold Location.methodName
    simp only [hp, lastColons_at cls hm']
    exact dropType_none hm.1
  · unfold Location.className
    simp only [hp]
    rw [dropType_none (by simp [hc.1, hm.1]), lastColons_at cls hm']

theorem lastColons_suffix {s a b : Str} (h : lastColons s = some (a, b)) : s = a ++ c!"::" ++ b := by
  induction s generalizing a b with
  | nil => simp [lastColons] at h
  | cons c r ih =>
    unfold lastColons at h
    cases hr : lastColons r with
    | some p =>
      obtain ⟨x, y⟩ := p
      rw [hr] at h
      simp at h
      rw [ih hr, ← h.1, ← h.2]
      simp
    | none =>
      rw [hr] at h
      simp only at h
      split at h
      · rename_i hc
        simp only [Option.some.injEq, Prod.mk.injEq] at h
        obtain ⟨hc1, hc2⟩ := hc
        cases r with
        | nil => simp at hc2
        | cons d r =>
          simp at hc2 h
          obtain ⟨h1, h2⟩ := h
          subst h1; subst h2; subst hc1; subst hc2
          rfl
      · simp at h

/-- For a function outside any class the class name is empty. -/
theorem C99_function (file : Str) (line : Int) {type func params : Str} (ht : '(' ∉ type) (hf : PlainName func) (hf' : ':' ∉ func) :
    let l : Location := ⟨file, type ++ c!" " ++ func ++ c!"(" ++ params, line⟩
    l.methodName = func ∧ l.className = [] := by
  intro l
  have hp : dropParams l.method = type ++ ' ' :: func := by
    have : l.method = (type ++ ' ' :: func) ++ '(' :: params := by simp [l]
    rw [this]
    exact dropParams_at (by simp [ht, hf.2]) params
  constructor
  · unfold Location.methodName
    simp only [hp]
    cases hl : lastColons (type ++ ' ' :: func) with
    | none => exact dropType_at type hf.1
    | some p =>
      obtain ⟨a, b⟩ := p
      simp only
      have hs := lastColons_suffix hl
      -- the colons are in the type, so the blank is in what follows them
      have hb : ∃ u, b = u ++ ' ' :: func := by
        have hs' : type ++ ' ' :: func = (a ++ c!"::") ++ b := by rw [hs]
        rcases List.append_eq_append_iff.1 hs' with ⟨u, h1, h2⟩ | ⟨u, h1, h2⟩
        · -- `a::` reaches beyond the type
          cases u with
          | nil => exact ⟨[], by simpa using h2.symm⟩
          | cons c u =>
            simp at h2
            have : ':' ∈ c :: u := by
              have hl2 : (a ++ c!"::").getLast? = (c :: u).getLast? := by
                rw [h1, List.getLast?_append]; cases h : (c :: u).getLast? with
                | none => simp at h
                | some z => rfl
              have : (c :: u).getLast? = some ':' := by
                rw [← hl2]
                simp [List.getLast?_append]
              exact List.mem_of_getLast? this
            rw [← h2.1] at this
            exfalso
            apply hf'
            rw [h2.2]
            rcases List.mem_cons.1 this with h | h
            · exact absurd h (by decide)
            · simp [h]
        · exact ⟨u, h2⟩
      obtain ⟨u, rfl⟩ := hb
      exact dropType_at u hf.1
  · unfold Location.className
    simp only [hp, dropType_at type hf.1, lastColons_none hf']

example : (Location.mk (c!"/a/b/f.cxx") (c!"std::string kwiver::vital::timestamp::pretty_print() const") 3).methodName = c!"pretty_print" ∧
    (Location.mk (c!"/a/b/f.cxx") (c!"std::string kwiver::vital::timestamp::pretty_print() const") 3).className = c!"kwiver::vital::timestamp" ∧
    (Location.mk (c!"/a/b/f.cxx") (c!"std::vector< int > foo(int)") 3).methodName = c!"foo" ∧
    (Location.mk (c!"/a/b/f.cxx") (c!"std::vector< int > foo(int)") 3).className = [] := by decide +kernel

end Vital.Log
