/-
  ParseURLProtocol and ParseURL of vital/kwiversys/SystemTools.cxx, on the model of the regular expressions; properties C182, C183.
  A text is the list of the codes of its characters.
-/
import Verif.Regex.Link
import Verif.Regex.Object
import Mathlib.Data.List.Infix

namespace Vital.Regex
open Re

-- models: vital/kwiversys/SystemTools.cxx:119 (VTK_URL_PROTOCOL_REGEX)
def protocolPattern : String := "([a-zA-Z0-9]*)://(.*)"

-- models: vital/kwiversys/SystemTools.cxx:120 (VTK_URL_REGEX)
def urlPattern : String := "([a-zA-Z0-9]*)://(([A-Za-z0-9]+)(:([^:@]+))?@)?([^:@/]+)(:([0-9]+))?/(.+)?"

/-- `kwsys::RegularExpression re( pattern ); re.find( url )` and the groups asked for; `none`: undefined or out of the model's steps, `some none`: no match. -/
def findGroups (pattern : String) (fuel : Nat) (url : List Nat) (nos : List Nat) : Option (Option (List (List Nat))) :=
  match (Obj.new.compile (bytes pattern)).1.find fuel 1 url with
  | none => none
  | some (_, false) => some none
  | some (o, true) => (nos.mapM fun no => o.group (fun a => if a = 1 then some url else none) no).map some

-- models: vital/kwiversys/SystemTools.cxx:5232-5247 (ParseURLProtocol; protocol and dataglom)
def parseURLProtocol (fuel : Nat) (url : List Nat) : Option (Option (List (List Nat))) := findGroups protocolPattern fuel url [1, 2]

-- models: vital/kwiversys/SystemTools.cxx:5250-5281 (ParseURL; protocol, username, password, hostname, dataport, database)
def parseURL (fuel : Nat) (url : List Nat) : Option (Option (List (List Nat))) := findGroups urlPattern fuel url [1, 3, 5, 6, 8, 9]

/-! ### Specification -/

def isAlnumN (c : Nat) : Bool := (97 ≤ c && c ≤ 122) || (65 ≤ c && c ≤ 90) || (48 ≤ c && c ≤ 57)
def isDigitN (c : Nat) : Bool := 48 ≤ c && c ≤ 57

/-- `://` -/
def sep : List Nat := bytes "://"

/-- The parts of a URL. -/
structure Url where
  protocol : List Nat
  /-- user name, and password -/
  user : Option (List Nat × Option (List Nat))
  host : List Nat
  port : Option (List Nat)
  database : List Nat

/-- The parts put together. -/
def Url.text (u : Url) : List Nat :=
  u.protocol ++ sep ++
    (match u.user with | none => [] | some (n, none) => n ++ bytes "@" | some (n, some w) => n ++ bytes ":" ++ w ++ bytes "@") ++
    u.host ++ (match u.port with | none => [] | some d => bytes ":" ++ d) ++ bytes "/" ++ u.database

/-- Each part has its form: protocol and user name of letters and digits, the password without `:` and `@`, the host without these and `/`, the port a number;
all but the protocol, and the database, not empty. -/
def Url.Ok (u : Url) : Prop :=
  (∀ c ∈ u.protocol, isAlnumN c = true) ∧
  (∀ n w, u.user = some (n, w) → n ≠ [] ∧ (∀ c ∈ n, isAlnumN c = true) ∧ ∀ x, w = some x → x ≠ [] ∧ ∀ c ∈ x, c ≠ 58 ∧ c ≠ 64) ∧
  (u.host ≠ [] ∧ ∀ c ∈ u.host, c ≠ 58 ∧ c ≠ 64 ∧ c ≠ 47) ∧
  (∀ d, u.port = some d → d ≠ [] ∧ ∀ c ∈ d, isDigitN c = true)

/-! ### First ways to match -/

def Hd (n : Nat) (r : Re) (u : List Nat) (x : Out) : Prop := (outs n r u).head? = some x

theorem hd_cat {n : Nat} {a b : Re} {u v w : List Nat} {t1 t2 : List Evt} (h1 : Hd n a u (v, t1)) (h2 : Hd n b v (w, t2)) : Hd n (.cat a b) u (w, t1 ++ t2) := by
  unfold Hd at *
  rw [outs_cat]
  cases h : outs n a u with
  | nil => rw [h] at h1; cases h1
  | cons x L =>
    rw [h] at h1
    simp only [List.head?_cons, Option.some.injEq] at h1
    subst h1
    cases h' : outs n b v with
    | nil => rw [h'] at h2; cases h2
    | cons y L' =>
      rw [h'] at h2
      simp only [List.head?_cons, Option.some.injEq] at h2
      subst h2
      simp [andThen, h']

theorem hd_last {n : Nat} {a : Re} {u : List Nat} {x : Out} (h : Hd n a u x) : Hd n (.last a) u x := h

theorem hd_group {n no : Nat} {r : Re} {u v : List Nat} {t : List Evt} (h : Hd n r u (v, t)) :
    Hd n (.group no r) u (v, .opn no (n - u.length) :: t ++ [.cls no (n - v.length)]) := by
  unfold Hd at *
  rw [show outs n (.group no r) u = (outs n r u).map (fun p => (p.1, .opn no (n - u.length) :: p.2 ++ [.cls no (n - p.1.length)])) from rfl]
  rw [List.head?_map, h]; rfl

theorem hd_opt {n : Nat} {r : Re} {u : List Nat} {x : Out} (h : Hd n r u x) : Hd n (.opt r) u x := by
  unfold Hd at *
  rw [show outs n (.opt r) u = outs n r u ++ [(u, [])] from rfl, List.head?_append, h]; rfl

theorem hd_opt_none {n : Nat} {r : Re} {u : List Nat} (h : outs n r u = []) : Hd n (.opt r) u (u, []) := by
  unfold Hd
  rw [show outs n (.opt r) u = outs n r u ++ [(u, [])] from rfl, h]; rfl

theorem hd_lit {n : Nat} (s v : List Nat) : Hd n (.lit s) (s ++ v) (v, []) := by
  unfold Hd
  rw [show outs n (.lit s) (s ++ v) = if s.isPrefixOf (s ++ v) then [((s ++ v).drop s.length, [])] else [] from rfl]
  simp

theorem lit_fails {n : Nat} {s u : List Nat} (h : ¬ s <+: u) : outs n (.lit s) u = [] := by
  rw [show outs n (.lit s) u = if s.isPrefixOf u then [(u.drop s.length, [])] else [] from rfl, if_neg]
  rwa [List.isPrefixOf_iff_prefix]

/-- A run of characters that pass the test, and a place where it ends. -/
def Run (q : Nat → Bool) (x v : List Nat) : Prop := (∀ c ∈ x, q c = true) ∧ ∀ c, v.head? = some c → q c = false

theorem run_takeWhile {q : Nat → Bool} {x v : List Nat} (h : Run q x v) : (x ++ v).takeWhile q = x ∧ (x ++ v).dropWhile q = v := by
  obtain ⟨h1, h2⟩ := h
  induction x with
  | nil =>
    cases v with
    | nil => exact ⟨rfl, rfl⟩
    | cons c v => have := h2 c rfl; simp [this]
  | cons c x ih =>
    have hc := h1 c (by simp)
    obtain ⟨i1, i2⟩ := ih (fun d hd => h1 d (by simp [hd]))
    simp [hc, i1, i2]

theorem hd_star {n : Nat} {r : Re} (hs : r.simple = true) {x v : List Nat} (h : Run (charTest r) x v) : Hd n (.star r) (x ++ v) (v, []) := by
  unfold Hd
  rw [show outs n (.star r) (x ++ v) = rep (outs n r) (x ++ v).length (x ++ v) from rfl, rep_simple hs]
  obtain ⟨L, g, _⟩ := downs_run (q := charTest r) (u := x ++ v) (m := 0) (by omega)
  rw [g, (run_takeWhile h).2]; rfl

theorem hd_plus {n : Nat} {r : Re} (hs : r.simple = true) {x v : List Nat} (h : Run (charTest r) x v) (hx : x ≠ []) : Hd n (.plus r) (x ++ v) (v, []) := by
  unfold Hd
  rw [plus_simple hs]
  have hl := List.length_pos_iff.2 hx
  obtain ⟨L, g, _⟩ := downs_run (q := charTest r) (u := x ++ v) (m := 1) (by rw [(run_takeWhile h).1]; exact hl)
  rw [g, (run_takeWhile h).2]; rfl

/-! ### The trees of the two patterns -/

def alnumC : List Nat :=
  [97, 98, 99, 100, 101, 102, 103, 104, 105, 106, 107, 108, 109, 110, 111, 112, 113, 114, 115, 116, 117,
   118, 119, 120, 121, 122, 65, 66, 67, 68, 69, 70, 71, 72, 73, 74, 75, 76, 77, 78, 79, 80, 81, 82, 83, 84,
   85, 86, 87, 88, 89, 90, 48, 49, 50, 51, 52, 53, 54, 55, 56, 57]
def alnumC' : List Nat :=
  [65, 66, 67, 68, 69, 70, 71, 72, 73, 74, 75, 76, 77, 78, 79, 80, 81, 82, 83, 84, 85, 86,
   87, 88, 89, 90, 97, 98, 99, 100, 101, 102, 103, 104, 105, 106, 107, 108, 109, 110, 111,
   112, 113, 114, 115, 116, 117, 118, 119, 120, 121, 122, 48, 49, 50, 51, 52, 53, 54, 55,
   56, 57]
def digitC : List Nat := [48, 49, 50, 51, 52, 53, 54, 55, 56, 57]

def protoPart : Re := .cat (.group 1 (.last (.star (.set false alnumC)))) (.lit [58, 47, 47])
def protocolRe : Re := .last (.cat protoPart (.group 2 (.last (.star .any))))
def passPart : Re := .group 4 (.last (.cat (.lit [58]) (.group 5 (.last (.plus (.set true [58, 64]))))))
def userPart : Re := .group 2 (.last (.cat (.cat (.group 3 (.last (.plus (.set false alnumC')))) (.opt passPart)) (.lit [64])))
def portPart : Re := .group 7 (.last (.cat (.lit [58]) (.group 8 (.last (.plus (.set false digitC))))))
def hostPart : Re := .group 6 (.last (.plus (.set true [58, 64, 47])))
def urlRe : Re :=
  .last (.cat (.cat (.cat (.cat (.cat protoPart (.opt userPart)) hostPart) (.opt portPart)) (.lit [47])) (.opt (.group 9 (.last (.plus .any)))))

theorem protocol_parse : parse (bytes protocolPattern) = some protocolRe := by decide +kernel
theorem url_parse : parse (bytes urlPattern) = some urlRe := by decide +kernel

theorem below (P : Nat → Prop) [DecidablePred P] (h : ∀ c < 128, P c) (hb : ∀ c, 128 ≤ c → P c) (c : Nat) : P c := by
  by_cases hc : c < 128
  · exact h c hc
  · exact hb c (by omega)

theorem big_notin {l : List Nat} (h : ∀ d ∈ l, d < 128) {c : Nat} (hc : 128 ≤ c) : l.contains c = false := by
  rw [Bool.eq_false_iff]
  intro hm
  have := h c (by simpa using hm)
  omega

theorem big_alnum {c : Nat} (hc : 128 ≤ c) : isAlnumN c = false ∧ isDigitN c = false := by
  unfold isAlnumN isDigitN
  constructor <;> simp <;> omega

theorem alnum_test : ∀ c, charTest (.set false alnumC) c = isAlnumN c := by
  refine below _ (by decide +kernel) (fun c hc => ?_)
  simp only [charTest, big_notin (l := alnumC) (by decide) hc, (big_alnum hc).1]; rfl
theorem alnum_test' : ∀ c, charTest (.set false alnumC') c = isAlnumN c := by
  refine below _ (by decide +kernel) (fun c hc => ?_)
  simp only [charTest, big_notin (l := alnumC') (by decide) hc, (big_alnum hc).1]; rfl
theorem digit_test : ∀ c, charTest (.set false digitC) c = isDigitN c := by
  refine below _ (by decide +kernel) (fun c hc => ?_)
  simp only [charTest, big_notin (l := digitC) (by decide) hc, (big_alnum hc).2]; rfl
theorem pass_test (c : Nat) : charTest (.set true [58, 64]) c = true ↔ c ≠ 58 ∧ c ≠ 64 := by
  simp [charTest]
theorem host_test (c : Nat) : charTest (.set true [58, 64, 47]) c = true ↔ c ≠ 58 ∧ c ≠ 64 ∧ c ≠ 47 := by
  simp [charTest]

/-! ### From a way to match to the groups -/

theorem compiled (pattern : String) (r : Re) (h0 : 0 ∉ bytes pattern) (hp : parse (bytes pattern) = some r) (hl : len r + 4 < 32767) :
    ∃ p, (Obj.new.compile (bytes pattern)).1.prog = some p ∧ ∀ text, Finds p text (foundOf text.length (search text.length r text)) := by
  obtain ⟨p, h1, h2⟩ := finds_search h0 hp hl
  refine ⟨p, ?_, h2⟩
  rcases compile_prog Obj.new (bytes pattern) with ⟨q, g1, _, g2⟩ | ⟨⟨x, hx⟩, _⟩
  · rw [h1] at g1; cases g1; exact g2
  · rw [h1] at hx; cases hx

/-- Text of a group, from its marks. -/
def marked (text : List Nat) (tr : List Evt) (no : Nat) : Option (List Nat) :=
  match (capsOf tr).st no, (capsOf tr).en no with
  | none, _ => some []
  | some i, some j => if i ≤ j ∧ j ≤ text.length then some ((text.drop i).take (j - i)) else none
  | _, _ => none

theorem findGroups_yes {pattern : String} {r : Re} (h0 : 0 ∉ bytes pattern) (hp : parse (bytes pattern) = some r) (hl : len r + 4 < 32767)
    {text u : List Nat} {x : Out} (hs : search text.length r text = some (u, x)) {nos : List Nat} (hn : 0 ∉ nos) {l : List (List Nat)}
    (hm : nos.mapM (marked text x.2) = some l) :
    ∃ N, ∀ fuel, N ≤ fuel → findGroups pattern fuel text nos = some (some l) := by
  obtain ⟨p, h1, h2⟩ := compiled pattern r h0 hp hl
  obtain ⟨N, hN⟩ := h2 text
  refine ⟨N, fun fuel hf => ?_⟩
  unfold findGroups Obj.find
  rw [h1]
  simp only [hN fuel hf, hs, foundOf]
  have : (nos.mapM fun no => Obj.group {
      prog := some p
      st := fun n => if n = 0 then .at 1 (text.length - u.length) else slotAt 1 ((capsOf x.2).st n)
      en := fun n => if n = 0 then .at 1 (text.length - x.1.length) else slotAt 1 ((capsOf x.2).en n)
      search := .at 1 0 }
      (fun a => if a = 1 then some text else none) no) = nos.mapM (marked text x.2) := by
    clear hm
    induction nos with
    | nil => rfl
    | cons no nos ih =>
      simp only [List.mem_cons, not_or] at hn
      rw [List.mapM_cons, List.mapM_cons, ih hn.2]
      congr 1
      unfold Obj.group marked
      have hno : no ≠ 0 := Ne.symm hn.1
      simp only [hno, if_false]
      cases (capsOf x.2).st no with
      | none => rfl
      | some i =>
        cases (capsOf x.2).en no with
        | none => rfl
        | some j =>
          simp only [slotAt, true_and, if_true]
          by_cases hij : i ≤ j
          · simp [hij]
          · simp [hij]
  rw [this, hm]; rfl

theorem findGroups_no {pattern : String} {r : Re} (h0 : 0 ∉ bytes pattern) (hp : parse (bytes pattern) = some r) (hl : len r + 4 < 32767)
    {text : List Nat} (hs : search text.length r text = none) (nos : List Nat) :
    ∃ N, ∀ fuel, N ≤ fuel → findGroups pattern fuel text nos = some none := by
  obtain ⟨p, h1, h2⟩ := compiled pattern r h0 hp hl
  obtain ⟨N, hN⟩ := h2 text
  refine ⟨N, fun fuel hf => ?_⟩
  unfold findGroups Obj.find
  rw [h1]
  simp only [hN fuel hf, hs, foundOf]
  split <;> simp_all
  all_goals (split at * <;> simp_all)

theorem search_here {n : Nat} {r : Re} {u : List Nat} {x : Out} (h : Hd n r u x) : search n r u = some (u, x) := by
  unfold Hd at h
  cases u with
  | nil => simp [search, h]
  | cons c u => simp only [search, h]

theorem search_skip {n : Nat} {r : Re} {c : Nat} {u : List Nat} (h : outs n r (c :: u) = []) : search n r (c :: u) = search n r u := by
  simp only [search, h, List.head?_nil]

theorem piece (text a x b : List Nat) (h : text = a ++ (x ++ b)) :
    (text.drop (text.length - (x.length + b.length))).take (text.length - b.length - (text.length - (x.length + b.length))) = x := by
  subst h
  have e1 : (a ++ (x ++ b)).length - (x.length + b.length) = a.length := by simp
  have e2 : (a ++ (x ++ b)).length - b.length - a.length = x.length := by simp; omega
  rw [e1, e2]; simp

/-! ### The protocol -/

theorem proto_head (n : Nat) (x v : List Nat) (hx : ∀ c ∈ x, isAlnumN c = true) :
    Hd n protoPart (x ++ ([58, 47, 47] ++ v)) (v, [.opn 1 (n - (x.length + (3 + v.length))), .cls 1 (n - (3 + v.length))]) := by
  have hr : Run (charTest (.set false alnumC)) x ([58, 47, 47] ++ v) := by
    refine ⟨fun c hc => by rw [alnum_test]; exact hx c hc, ?_⟩
    intro c hc
    simp only [List.cons_append, List.head?_cons, Option.some.injEq] at hc
    subst hc; decide +kernel
  have h1 := hd_group (no := 1) (hd_last (hd_star (n := n) (r := .set false alnumC) rfl hr))
  have h2 := hd_lit (n := n) [58, 47, 47] v
  have := hd_cat h1 h2
  have e1 : (x ++ ([58, 47, 47] ++ v)).length = x.length + (3 + v.length) := by simp; omega
  have e2 : ([58, 47, 47] ++ v).length = 3 + v.length := by simp; omega
  rw [e1, e2] at this
  simpa [protoPart] using this

theorem proto_fails (n : Nat) (u : List Nat) (h : ¬ [58, 47, 47] <+: u.dropWhile isAlnumN) : outs n protoPart u = [] := by
  have ht : charTest (.set false alnumC) = isAlnumN := funext alnum_test
  rw [show outs n protoPart u = andThen ((outs n (.star (.set false alnumC)) u).map
      (fun p => (p.1, .opn 1 (n - u.length) :: p.2 ++ [.cls 1 (n - p.1.length)]))) (outs n (.lit [58, 47, 47])) from rfl]
  rw [show outs n (.star (.set false alnumC)) u = rep (outs n (.set false alnumC)) u.length u from rfl, rep_simple rfl]
  obtain ⟨L, g, hL⟩ := downs_run (q := charTest (.set false alnumC)) (u := u) (m := 0) (by omega)
  rw [g, ht]
  simp only [andThen, List.map_cons, List.flatMap_cons, List.append_eq_nil_iff]
  refine ⟨by rw [lit_fails h]; rfl, ?_⟩
  rw [List.flatMap_eq_nil_iff]
  intro y hy
  obtain ⟨z, hz, rfl⟩ := List.mem_map.1 hy
  obtain ⟨c, v, hc, hq⟩ := hL z hz
  simp only [hc]
  rw [lit_fails]
  · rfl
  · intro hp
    have : c = 58 := by
      obtain ⟨t, ht⟩ := hp
      simp only [List.cons_append, List.cons.injEq] at ht
      exact ht.1.symm
    subst this
    exact absurd hq (by decide +kernel)

theorem any_run (v : List Nat) : Run (charTest .any) v [] := ⟨fun _ _ => rfl, by simp⟩

theorem protocol_head (n : Nat) (x v : List Nat) (hx : ∀ c ∈ x, isAlnumN c = true) :
    Hd n protocolRe (x ++ ([58, 47, 47] ++ v)) ([], [.opn 1 (n - (x.length + (3 + v.length))), .cls 1 (n - (3 + v.length)), .opn 2 (n - v.length), .cls 2 n]) := by
  have h1 := proto_head n x v hx
  have h2 := hd_group (no := 2) (hd_last (hd_star (n := n) (r := .any) rfl (any_run v)))
  rw [List.append_nil] at h2
  have := hd_last (hd_cat h1 h2)
  simpa [protocolRe] using this

theorem protocol_fails (n : Nat) (u : List Nat) (h : ¬ [58, 47, 47] <+: u.dropWhile isAlnumN) : outs n protocolRe u = [] := by
  rw [show outs n protocolRe u = andThen (outs n protoPart u) (outs n (.group 2 (.last (.star .any)))) from rfl, proto_fails n u h]; rfl

/-- A text that begins with a character outside of `://`'s first occurrence. -/
theorem skip_ok {q : Nat → Bool} (hq : q 58 = false) (pre p rest : List Nat) (hne : pre ≠ []) (hlast : ∀ c, pre.getLast? = some c → q c = false)
    (hfirst : ∀ a b, pre ++ p ++ [58, 47, 47] ++ rest = a ++ [58, 47, 47] ++ b → (pre ++ p).length ≤ a.length) :
    ¬ [58, 47, 47] <+: (pre ++ p ++ [58, 47, 47] ++ rest).dropWhile q := by
  rintro ⟨t, ht⟩
  obtain ⟨c, hc⟩ : ∃ c, pre.getLast? = some c := by
    cases h : pre.getLast? with
    | none => exact absurd (List.getLast?_eq_none_iff.1 h) hne
    | some c => exact ⟨c, rfl⟩
  have hcq := hlast c hc
  obtain ⟨pre', rfl⟩ : ∃ pre', pre = pre' ++ [c] := ⟨pre.dropLast, (List.dropLast_append_getLast? c hc).symm⟩
  have htd := List.takeWhile_append_dropWhile (p := q) (l := pre' ++ [c] ++ p ++ [58, 47, 47] ++ rest)
  rw [← ht] at htd
  have hl := hfirst (List.takeWhile q (pre' ++ [c] ++ p ++ [58, 47, 47] ++ rest)) t (htd.symm.trans (List.append_assoc _ _ _).symm)
  have hall := List.all_takeWhile (p := q) (l := pre' ++ [c] ++ p ++ [58, 47, 47] ++ rest)
  rw [List.all_eq_true] at hall
  generalize List.takeWhile q (pre' ++ [c] ++ p ++ [58, 47, 47] ++ rest) = a at *
  have : c ∈ a := by
    have hg : (a ++ ([58, 47, 47] ++ t))[pre'.length]? = some c := by rw [htd]; simp
    simp only [List.length_append, List.length_singleton] at hl
    rw [List.getElem?_append_left (by omega)] at hg
    exact List.mem_of_getElem? hg
  rw [hall c this] at hcq; cases hcq

theorem protocol_none (n : Nat) : ∀ u : List Nat, ¬ [58, 47, 47] <:+: u → search n protocolRe u = none := by
  intro u
  have hd : ∀ u : List Nat, ¬ [58, 47, 47] <:+: u → ¬ [58, 47, 47] <+: u.dropWhile isAlnumN := by
    intro u h hp
    exact h (hp.isInfix.trans (List.dropWhile_suffix _).isInfix)
  induction u with
  | nil => intro h; simp [search, protocol_fails n [] (hd _ h)]
  | cons c u ih =>
    intro h
    rw [search_skip (protocol_fails n _ (hd _ h))]
    exact ih (fun hi => h (hi.trans (List.suffix_cons c u).isInfix))

theorem protocol_search (n : Nat) (p rest : List Nat) (hp : ∀ c ∈ p, isAlnumN c = true) : ∀ pre : List Nat,
    (∀ c, pre.getLast? = some c → isAlnumN c = false) →
    (∀ a b, pre ++ p ++ [58, 47, 47] ++ rest = a ++ [58, 47, 47] ++ b → (pre ++ p).length ≤ a.length) →
    search n protocolRe (pre ++ p ++ [58, 47, 47] ++ rest) = some (p ++ [58, 47, 47] ++ rest, ([],
      [.opn 1 (n - (p.length + (3 + rest.length))), .cls 1 (n - (3 + rest.length)), .opn 2 (n - rest.length), .cls 2 n])) := by
  intro pre
  induction pre with
  | nil =>
    intro _ _
    have := search_here (protocol_head n p rest hp)
    simpa using this
  | cons c pre ih =>
    intro hl hf
    have hskip := protocol_fails n _ (skip_ok (q := isAlnumN) (by decide) (c :: pre) p rest (by simp) hl hf)
    rw [show c :: pre ++ p ++ [58, 47, 47] ++ rest = c :: (pre ++ p ++ [58, 47, 47] ++ rest) by simp] at hskip ⊢
    rw [search_skip hskip]
    apply ih
    · intro d hd
      apply hl
      cases pre with
      | nil => cases hd
      | cons e pre => rw [List.getLast?_cons_cons]; exact hd
    · intro a b h
      have := hf (c :: a) b (by simp only [List.cons_append, List.cons.injEq, true_and]; exact h)
      simpa using this

/-- C182. ParseURLProtocol returns false exactly if the text does not contain `://`; otherwise the data is what follows the first `://`, and the protocol is the
longest run of letters and digits before it (what comes before that is ignored). -/
theorem C182_protocol (url : List Nat) :
    (¬ sep <:+: url → ∃ N, ∀ fuel, N ≤ fuel → parseURLProtocol fuel url = some none) ∧
    (∀ pre p rest, url = pre ++ p ++ sep ++ rest → (∀ a b, url = a ++ sep ++ b → (pre ++ p).length ≤ a.length) →
      (∀ c ∈ p, isAlnumN c = true) → (∀ c, pre.getLast? = some c → isAlnumN c = false) →
      ∃ N, ∀ fuel, N ≤ fuel → parseURLProtocol fuel url = some (some [p, rest])) := by
  have h0 : 0 ∉ bytes protocolPattern := by decide +kernel
  have hl : len protocolRe + 4 < 32767 := by decide +kernel
  have hsep : sep = [58, 47, 47] := by decide +kernel
  rw [hsep]
  constructor
  · intro h
    exact findGroups_no h0 protocol_parse hl (protocol_none _ _ h) _
  · intro pre p rest hu hf hp hpre
    subst hu
    refine findGroups_yes h0 protocol_parse hl (protocol_search _ p rest hp pre hpre hf) (by simp) ?_
    generalize ht : pre ++ p ++ [58, 47, 47] ++ rest = text
    have hlen : text.length = pre.length + (p.length + (3 + rest.length)) := by rw [← ht]; simp; omega
    have e1 := piece text pre p ([58, 47, 47] ++ rest) (by rw [← ht]; simp)
    have e2 := piece text (pre ++ p ++ [58, 47, 47]) rest [] (by rw [← ht]; simp)
    have e0 : ([58, 47, 47] ++ rest).length = 3 + rest.length := by simp; omega
    rw [e0] at e1
    simp only [List.length_nil, Nat.add_zero, Nat.sub_zero] at e2
    simp only [List.mapM_cons, List.mapM_nil, marked, capsOf, Evt.note, Caps.setSt, Caps.setEn, Caps.none, List.foldr_cons, List.foldr_nil, ↓reduceIte, Nat.reduceEqDiff]
    simp only [e1, e2]
    rw [if_pos (by omega), if_pos (by omega)]
    rfl

example : (parseURLProtocol 2000 (bytes "see http://a.b/c://d")) = some (some [bytes "http", bytes "a.b/c://d"]) := by decide +kernel

/-! ### The whole URL -/

theorem andThen_fails {l : List Out} {g : List Nat → List Out} (h : ∀ x ∈ l, g x.1 = []) : andThen l g = [] := by
  unfold andThen
  rw [List.flatMap_eq_nil_iff]
  intro x hx
  rw [h x hx]; rfl

theorem lit1_fails {n c : Nat} {v : List Nat} (h : v.head? ≠ some c) : outs n (.lit [c]) v = [] := by
  apply lit_fails
  rintro ⟨t, rfl⟩
  exact h rfl

/-- The ends of a non-empty run: the whole run, or a character of the run follows. -/
theorem plus_ends {n : Nat} {r : Re} (hs : r.simple = true) {u : List Nat} {x : Out} (hx : x ∈ outs n (.plus r) u) :
    x.1 = u.dropWhile (charTest r) ∨ ∃ c v, x.1 = c :: v ∧ charTest r c = true := by
  rw [plus_simple hs] at hx
  by_cases hm : 1 ≤ (u.takeWhile (charTest r)).length
  · obtain ⟨L, g, hL⟩ := downs_run hm
    rw [g, List.mem_cons] at hx
    rcases hx with rfl | hx
    · exact .inl rfl
    · exact .inr (hL x hx)
  · rw [downs_few (by omega)] at hx; cases hx

theorem group_mem {n no : Nat} {r : Re} {u : List Nat} {x : Out} (h : x ∈ outs n (.group no (.last r)) u) : ∃ y ∈ outs n r u, x.1 = y.1 := by
  rw [show outs n (.group no (.last r)) u = (outs n r u).map (fun p => (p.1, .opn no (n - u.length) :: p.2 ++ [.cls no (n - p.1.length)])) from rfl,
    List.mem_map] at h
  obtain ⟨y, hy, rfl⟩ := h
  exact ⟨y, hy, rfl⟩

theorem opt_mem' {n : Nat} {r : Re} {u : List Nat} {x : Out} (h : x ∈ outs n (.opt r) u) : x ∈ outs n r u ∨ x.1 = u := by
  rw [show outs n (.opt r) u = outs n r u ++ [(u, [])] from rfl, List.mem_append, List.mem_singleton] at h
  rcases h with h | h
  · exact .inl h
  · rw [h]; exact .inr rfl

theorem pass_fails {n : Nat} {v : List Nat} (h : v.head? ≠ some 58) : outs n passPart v = [] := by
  rw [show outs n passPart v = (andThen (outs n (.lit [58]) v) (outs n (.group 5 (.last (.plus (.set true [58, 64])))))).map
    (fun p => (p.1, .opn 4 (n - v.length) :: p.2 ++ [.cls 4 (n - p.1.length)])) from rfl, lit1_fails h]
  rfl

/-- Where the user part is not there: no `@` can be reached. -/
theorem user_fails (n : Nat) (h tail : List Nat) (hne : h ≠ []) (hh : ∀ c ∈ h, c ≠ 58 ∧ c ≠ 64 ∧ c ≠ 47)
    (ht : tail.head? = some 47 ∨ (∃ c ∈ h, isAlnumN c = false) ∨
      ∃ r, tail = 58 :: r ∧ (r.dropWhile (charTest (.set true [58, 64]))).head? ≠ some 64)
    (ht64 : tail.head? ≠ some 64) : outs n userPart (h ++ tail) = [] := by
  rw [show outs n userPart (h ++ tail) = (andThen (andThen (outs n (.group 3 (.last (.plus (.set false alnumC')))) (h ++ tail)) (outs n (.opt passPart)))
      (outs n (.lit [64]))).map (fun p => (p.1, .opn 2 (n - (h ++ tail).length) :: p.2 ++ [.cls 2 (n - p.1.length)])) from rfl]
  rw [List.map_eq_nil_iff]
  apply andThen_fails
  intro x hx
  apply lit1_fails
  obtain ⟨y, hy, q, hq, rfl⟩ := mem_andThen.1 hx
  simp only
  obtain ⟨z, hz, e⟩ := group_mem hy
  rw [e] at hq
  have hends := plus_ends (r := .set false alnumC') rfl hz
  rw [show charTest (.set false alnumC') = isAlnumN from funext alnum_test'] at hends
  have key : z.1.head? ≠ some 64 ∧ (z.1.head? = some 58 → z.1 = tail ∧ ∀ c ∈ h, isAlnumN c = true) := by
    rcases hends with he | ⟨c, v, hc, hq⟩
    · by_cases hall : ∀ c ∈ h, isAlnumN c = true
      · have hd : (h ++ tail).dropWhile isAlnumN = tail.dropWhile isAlnumN := by
          clear hne hh ht hx hy hz he e hq
          induction h with
          | nil => rfl
          | cons a h ih => simp [hall a (by simp), ih (fun c hc => hall c (by simp [hc]))]
        have ht' : tail.head? = some 47 ∨ tail.head? = some 58 := by
          rcases ht with h1 | ⟨c, hc, h2⟩ | ⟨r, rfl, _⟩
          · exact .inl h1
          · rw [hall c hc] at h2; cases h2
          · exact .inr rfl
        have hd2 : tail.dropWhile isAlnumN = tail := by
          cases tail with
          | nil => rfl
          | cons a t =>
            have : isAlnumN a = false := by
              rcases ht' with h1 | h1 <;> (simp only [List.head?_cons, Option.some.injEq] at h1; subst h1; decide)
            simp [this]
        rw [he, hd, hd2]
        exact ⟨ht64, fun _ => ⟨rfl, hall⟩⟩
      · have : ∃ c ∈ h, ((h ++ tail).dropWhile isAlnumN).head? = some c := by
          clear hne hh ht hx hy hz he e hq
          induction h with
          | nil => simp at hall
          | cons a h ih =>
            by_cases ha : isAlnumN a = true
            · obtain ⟨c, hc, h2⟩ := ih (fun hf => hall (fun c hc => by
                rcases List.mem_cons.1 hc with rfl | hc
                · exact ha
                · exact hf c hc))
              exact ⟨c, by simp [hc], by simpa [ha] using h2⟩
            · exact ⟨a, by simp, by simp [ha]⟩
        obtain ⟨c, hc, h2⟩ := this
        rw [he, h2]
        obtain ⟨c1, c2, _⟩ := hh c hc
        exact ⟨by simpa using c2, fun h => absurd (by simpa using h) c1⟩
    · rw [hc]
      simp only [List.head?_cons, ne_eq, Option.some.injEq]
      refine ⟨?_, ?_⟩
      · rintro rfl; exact absurd hq (by decide)
      · rintro rfl; exact absurd hq (by decide)
  rcases opt_mem' hq with hq | hq
  · by_cases h58 : z.1.head? = some 58
    · obtain ⟨hz1, hall⟩ := key.2 h58
      rw [hz1] at hq h58
      rcases ht with h1 | ⟨c, hc, h2⟩ | ⟨r, rfl, hr⟩
      · rw [h1] at h58; cases h58
      · rw [hall c hc] at h2; cases h2
      · obtain ⟨y2, hy2, e2⟩ := group_mem hq
        rw [e2]
        obtain ⟨a, ha, b, hb, rfl⟩ := mem_andThen.1 (show y2 ∈ andThen (outs n (.lit [58]) (58 :: r)) (outs n (.group 5 (.last (.plus (.set true [58, 64]))))) from hy2)
        have ha' : a.1 = r := by
          rw [outs_lit1] at ha
          simp only [↓reduceIte, List.mem_singleton] at ha
          rw [ha]
        rw [ha'] at hb
        obtain ⟨w, hw, e3⟩ := group_mem hb
        simp only
        rw [e3]
        rcases plus_ends (r := .set true [58, 64]) rfl hw with h4 | ⟨c, v, hc, hq⟩
        · rw [h4]; exact hr
        · rw [hc]
          have := (pass_test c).1 hq
          simpa using this.2
    · rw [pass_fails h58] at hq; cases hq
  · rw [hq]; exact key.1

/-- The text behind the host. -/
def portText : Option (List Nat) → List Nat
  | none => []
  | some d => 58 :: d

def userText : Option (List Nat × Option (List Nat)) → List Nat
  | none => []
  | some (n, none) => n ++ [64]
  | some (n, some w) => n ++ (58 :: (w ++ [64]))

theorem url_text (u : Url) : u.text = u.protocol ++ ([58, 47, 47] ++ (userText u.user ++ (u.host ++ (portText u.port ++ (47 :: u.database))))) := by
  have h1 : sep = [58, 47, 47] := by decide +kernel
  have h2 : bytes "@" = [64] := by decide +kernel
  have h3 : bytes ":" = [58] := by decide +kernel
  have h4 : bytes "/" = [47] := by decide +kernel
  unfold Url.text
  rw [h1, h2, h3, h4]
  rcases u with ⟨p, (_ | ⟨n, (_ | w)⟩), h, (_ | d), db⟩ <;> simp [userText, portText]

/-- The marks of the user part; `m` characters follow. -/
def userEv (n m : Nat) : Option (List Nat × Option (List Nat)) → List Evt
  | none => []
  | some (nm, none) => [.opn 2 (n - (nm.length + (1 + m))), .opn 3 (n - (nm.length + (1 + m))), .cls 3 (n - (1 + m)), .cls 2 (n - m)]
  | some (nm, some x) => [.opn 2 (n - (nm.length + (1 + (x.length + (1 + m))))), .opn 3 (n - (nm.length + (1 + (x.length + (1 + m))))),
      .cls 3 (n - (1 + (x.length + (1 + m)))), .opn 4 (n - (1 + (x.length + (1 + m)))), .opn 5 (n - (x.length + (1 + m))),
      .cls 5 (n - (1 + m)), .cls 4 (n - (1 + m)), .cls 2 (n - m)]

/-- The marks of the port; `m` characters follow. -/
def portEv (n m : Nat) : Option (List Nat) → List Evt
  | none => []
  | some d => [.opn 7 (n - (1 + (d.length + (1 + m)))), .opn 8 (n - (d.length + (1 + m))), .cls 8 (n - (1 + m)), .cls 7 (n - (1 + m))]

theorem db_head (n : Nat) (db : List Nat) :
    Hd n (.opt (.group 9 (.last (.plus .any)))) db ([], if db = [] then [] else [.opn 9 (n - db.length), .cls 9 n]) := by
  by_cases h : db = []
  · subst h
    rw [if_pos rfl]
    exact hd_opt_none rfl
  · rw [if_neg h]
    have := hd_opt (hd_group (no := 9) (hd_last (hd_plus (n := n) (r := .any) rfl (any_run db) h)))
    simpa using this

theorem port_head (n : Nat) (port : Option (List Nat)) (db : List Nat) (hp : ∀ d, port = some d → d ≠ [] ∧ ∀ c ∈ d, isDigitN c = true) :
    Hd n (.opt portPart) (portText port ++ (47 :: db)) (47 :: db, portEv n db.length port) := by
  cases port with
  | none =>
    apply hd_opt_none
    rw [show outs n portPart (portText none ++ 47 :: db) = (andThen (outs n (.lit [58]) (47 :: db)) (outs n (.group 8 (.last (.plus (.set false digitC)))))).map
      (fun p => (p.1, .opn 7 (n - (47 :: db).length) :: p.2 ++ [.cls 7 (n - p.1.length)])) from rfl, lit1_fails (by simp)]
    rfl
  | some d =>
    obtain ⟨hne, hd⟩ := hp d rfl
    have hr : Run (charTest (.set false digitC)) d (47 :: db) := by
      refine ⟨fun c hc => by rw [digit_test]; exact hd c hc, ?_⟩
      intro c hc
      simp only [List.head?_cons, Option.some.injEq] at hc
      subst hc; decide +kernel
    have h1 := hd_lit (n := n) [58] (d ++ 47 :: db)
    have h2 := hd_group (no := 8) (hd_last (hd_plus (n := n) (r := .set false digitC) rfl hr hne))
    have := hd_opt (hd_group (no := 7) (hd_last (hd_cat h1 h2)))
    have e0 : ([58] ++ (d ++ 47 :: db)).length = 1 + (d.length + (1 + db.length)) := by simp; omega
    have e1 : (d ++ 47 :: db).length = d.length + (1 + db.length) := by simp; omega
    have e2 : (47 :: db).length = 1 + db.length := by simp; omega
    rw [e0, e1, e2] at this
    simpa [portPart, portText, portEv] using this

theorem host_head (n : Nat) (h v : List Nat) (hne : h ≠ []) (hh : ∀ c ∈ h, c ≠ 58 ∧ c ≠ 64 ∧ c ≠ 47) (hv : v.head? = some 58 ∨ v.head? = some 47) :
    Hd n hostPart (h ++ v) (v, [.opn 6 (n - (h.length + v.length)), .cls 6 (n - v.length)]) := by
  have hr : Run (charTest (.set true [58, 64, 47])) h v := by
    refine ⟨fun c hc => (host_test c).2 (hh c hc), ?_⟩
    intro c hc
    rcases hv with hv | hv <;> (rw [hv] at hc; cases hc; decide)
  have := hd_group (no := 6) (hd_last (hd_plus (n := n) (r := .set true [58, 64, 47]) rfl hr hne))
  simpa [hostPart] using this

theorem user_head (n : Nat) (nm : List Nat) (w : Option (List Nat)) (v : List Nat) (hne : nm ≠ []) (hn : ∀ c ∈ nm, isAlnumN c = true)
    (hw : ∀ x, w = some x → x ≠ [] ∧ ∀ c ∈ x, c ≠ 58 ∧ c ≠ 64) :
    Hd n (.opt userPart) (userText (some (nm, w)) ++ v) (v, userEv n v.length (some (nm, w))) := by
  have run : ∀ (c : Nat) (t : List Nat), isAlnumN c = false → Run (charTest (.set false alnumC')) nm (c :: t) := by
    intro c t hc
    refine ⟨fun c hc => by rw [alnum_test']; exact hn c hc, ?_⟩
    intro d hd
    simp only [List.head?_cons, Option.some.injEq] at hd
    subst hd; rw [alnum_test']; exact hc
  cases w with
  | none =>
    have h3 := hd_group (no := 3) (hd_last (hd_plus (n := n) (r := .set false alnumC') rfl (run 64 v (by decide)) hne))
    have h4 : Hd n (.opt passPart) (64 :: v) (64 :: v, []) := hd_opt_none (pass_fails (by simp))
    have h5 := hd_lit (n := n) [64] v
    have := hd_opt (hd_group (no := 2) (hd_last (hd_cat (hd_cat h3 h4) h5)))
    have e1 : (nm ++ 64 :: v).length = nm.length + (1 + v.length) := by simp; omega
    have e2 : (64 :: v).length = 1 + v.length := by simp; omega
    rw [e1, e2] at this
    simpa [userPart, userText, userEv] using this
  | some x =>
    obtain ⟨hx, hxc⟩ := hw x rfl
    have h3 := hd_group (no := 3) (hd_last (hd_plus (n := n) (r := .set false alnumC') rfl (run 58 (x ++ 64 :: v) (by decide)) hne))
    have hr : Run (charTest (.set true [58, 64])) x (64 :: v) := by
      refine ⟨fun c hc => (pass_test c).2 (hxc c hc), ?_⟩
      intro c hc
      simp only [List.head?_cons, Option.some.injEq] at hc
      subst hc; decide
    have h6 := hd_group (no := 5) (hd_last (hd_plus (n := n) (r := .set true [58, 64]) rfl hr hx))
    have h4 := hd_opt (hd_group (no := 4) (hd_last (hd_cat (hd_lit (n := n) [58] (x ++ 64 :: v)) h6)))
    have h5 := hd_lit (n := n) [64] v
    have := hd_opt (hd_group (no := 2) (hd_last (hd_cat (hd_cat h3 h4) h5)))
    have e1 : (nm ++ 58 :: (x ++ 64 :: v)).length = nm.length + (1 + (x.length + (1 + v.length))) := by simp; omega
    have e2 : (58 :: (x ++ 64 :: v)).length = 1 + (x.length + (1 + v.length)) := by simp; omega
    have e2' : ([58] ++ (x ++ 64 :: v)).length = 1 + (x.length + (1 + v.length)) := by simp; omega
    have e3 : (x ++ 64 :: v).length = x.length + (1 + v.length) := by simp; omega
    have e4 : (64 :: v).length = 1 + v.length := by simp; omega
    rw [e1, e2, e2', e3, e4] at this
    simpa [userPart, userText, passPart, userEv] using this

/-- No `@` of the database can be taken for the end of a password: there is a user part, or no port, or the host is not only letters and digits,
or a `:` comes before each `@` of the database. -/
def Url.Safe (u : Url) : Prop :=
  u.user ≠ none ∨ u.port = none ∨ (∃ c ∈ u.host, isAlnumN c = false) ∨ ∀ a b, u.database = a ++ 64 :: b → 58 ∈ a

theorem no_user (n : Nat) (u : Url) (hok : u.Ok) (hs : u.Safe) (hu : u.user = none) :
    outs n userPart (u.host ++ (portText u.port ++ (47 :: u.database))) = [] := by
  obtain ⟨_, _, ⟨hne, hh⟩, hp⟩ := hok
  apply user_fails n _ _ hne hh
  · rcases hs with h | h | h | h
    · exact absurd hu h
    · rw [h]; exact .inl rfl
    · exact .inr (.inl h)
    · cases hpo : u.port with
      | none => exact .inl rfl
      | some d =>
        refine .inr (.inr ⟨d ++ 47 :: u.database, rfl, ?_⟩)
        have hd := (hp d hpo).2
        have e : (d ++ 47 :: u.database).dropWhile (charTest (.set true [58, 64])) = u.database.dropWhile (charTest (.set true [58, 64])) := by
          clear hpo
          induction d with
          | nil => rfl
          | cons c d ih =>
            have hc : charTest (.set true [58, 64]) c = true := by
              rw [pass_test]
              have := hd c (by simp)
              simp only [isDigitN, Bool.and_eq_true, decide_eq_true_eq] at this
              omega
            rw [List.cons_append, List.dropWhile_cons, if_pos hc]
            exact ih (fun c hc => hd c (by simp [hc]))
        rw [e]
        intro h64
        have ht := List.takeWhile_append_dropWhile (p := charTest (.set true [58, 64])) (l := u.database)
        cases hdw : u.database.dropWhile (charTest (.set true [58, 64])) with
        | nil => rw [hdw] at h64; cases h64
        | cons c r =>
          rw [hdw] at h64 ht
          simp only [List.head?_cons, Option.some.injEq] at h64
          subst h64
          have hm := h _ _ ht.symm
          have hall := List.all_takeWhile (p := charTest (.set true [58, 64])) (l := u.database)
          rw [List.all_eq_true] at hall
          exact absurd (hall _ hm) (by decide)
  · cases u.port <;> simp [portText]

theorem url_head (n : Nat) (u : Url) (hok : u.Ok) (hs : u.Safe) :
    Hd n urlRe u.text ([], [.opn 1 (n - (u.protocol.length + (3 + (userText u.user ++ (u.host ++ (portText u.port ++ (47 :: u.database)))).length))),
      .cls 1 (n - (3 + (userText u.user ++ (u.host ++ (portText u.port ++ (47 :: u.database)))).length))] ++
      userEv n (u.host ++ (portText u.port ++ (47 :: u.database))).length u.user ++
      [.opn 6 (n - (u.host.length + (portText u.port ++ (47 :: u.database)).length)), .cls 6 (n - (portText u.port ++ (47 :: u.database)).length)] ++
      portEv n u.database.length u.port ++ [] ++ (if u.database = [] then [] else [.opn 9 (n - u.database.length), .cls 9 n])) := by
  rw [url_text]
  have hp := proto_head n u.protocol (userText u.user ++ (u.host ++ (portText u.port ++ (47 :: u.database)))) hok.1
  have hv : (portText u.port ++ (47 :: u.database)).head? = some 58 ∨ (portText u.port ++ (47 :: u.database)).head? = some 47 := by
    cases u.port
    · exact .inr rfl
    · exact .inl rfl
  have hh := host_head n u.host (portText u.port ++ (47 :: u.database)) hok.2.2.1.1 hok.2.2.1.2 hv
  have hpt := port_head n u.port u.database hok.2.2.2
  have hsl := hd_lit (n := n) [47] u.database
  have hdb := db_head n u.database
  have hus : Hd n (.opt userPart) (userText u.user ++ (u.host ++ (portText u.port ++ (47 :: u.database))))
      (u.host ++ (portText u.port ++ (47 :: u.database)), userEv n (u.host ++ (portText u.port ++ (47 :: u.database))).length u.user) := by
    cases hu : u.user with
    | none => exact hd_opt_none (no_user n u hok hs hu)
    | some q =>
      obtain ⟨nm, w⟩ := q
      obtain ⟨h1, h2, h3⟩ := hok.2.1 nm w hu
      exact user_head n nm w (u.host ++ (portText u.port ++ (47 :: u.database))) h1 h2 h3
  exact hd_last (hd_cat (hd_cat (hd_cat (hd_cat (hd_cat hp hus) hh) hpt) hsl) hdb)

theorem marked_piece {text a x b : List Nat} {tr : List Evt} {no : Nat} (h : text = a ++ (x ++ b)) (h1 : (capsOf tr).st no = some (text.length - (x.length + b.length)))
    (h2 : (capsOf tr).en no = some (text.length - b.length)) : marked text tr no = some x := by
  unfold marked
  rw [h1, h2]
  have := piece text a x b h
  simp only [this]
  rw [if_pos]
  have : text.length = a.length + (x.length + b.length) := by rw [h]; simp
  omega

theorem marked_none {text : List Nat} {tr : List Evt} {no : Nat} (h1 : (capsOf tr).st no = none) : marked text tr no = some [] := by
  unfold marked; rw [h1]

/-- C183 (partial). ParseURL gives back the parts of a URL, an absent part as the empty text; this needs that no `@` in the database can be taken for the end of a
password (`Safe`). -/
theorem C183_url_partial (u : Url) (hok : u.Ok) (hs : u.Safe) : ∃ N, ∀ fuel, N ≤ fuel → parseURL fuel u.text = some (some
    [u.protocol, (u.user.map Prod.fst).getD [], (u.user.bind Prod.snd).getD [], u.host, u.port.getD [], u.database]) := by
  have h0 : 0 ∉ bytes urlPattern := by decide +kernel
  have hl : len urlRe + 4 < 32767 := by decide +kernel
  refine findGroups_yes h0 url_parse hl (search_here (url_head _ u hok hs)) (by simp) ?_
  have ht := url_text u
  generalize u.text = text at *
  obtain ⟨p, us, h, po, db⟩ := u
  simp only at ht ⊢
  have go : ∀ tr, tr = [Evt.opn 1 (text.length - (p.length + (3 + (userText us ++ (h ++ (portText po ++ (47 :: db)))).length))),
      .cls 1 (text.length - (3 + (userText us ++ (h ++ (portText po ++ (47 :: db)))).length))] ++
      userEv text.length (h ++ (portText po ++ (47 :: db))).length us ++
      [.opn 6 (text.length - (h.length + (portText po ++ (47 :: db)).length)), .cls 6 (text.length - (portText po ++ (47 :: db)).length)] ++
      portEv text.length db.length po ++ [] ++ (if db = [] then [] else [.opn 9 (text.length - db.length), .cls 9 text.length]) →
      marked text tr 1 = some p ∧ marked text tr 3 = some ((us.map Prod.fst).getD []) ∧ marked text tr 5 = some ((us.bind Prod.snd).getD []) ∧
      marked text tr 6 = some h ∧ marked text tr 8 = some (po.getD []) ∧ marked text tr 9 = some db := by
    intro tr htr
    have e9 : db = [] ∨ db ≠ [] := by by_cases h : db = [] <;> simp [h]
    refine ⟨?_, ?_, ?_, ?_, ?_, ?_⟩
    · refine marked_piece (a := []) (b := [58, 47, 47] ++ (userText us ++ (h ++ (portText po ++ (47 :: db))))) (by rw [ht]; simp) ?_ ?_ <;> rw [htr] <;>
      rcases us with (_ | ⟨nm, (_ | w)⟩) <;> rcases po with (_ | d) <;> rcases e9 with h9 | h9 <;>
      simp [capsOf, Evt.note, Caps.setSt, Caps.setEn, Caps.none, userEv, portEv, h9] <;> omega
    · rcases us with (_ | ⟨nm, w⟩)
      · refine marked_none ?_
        rw [htr]
        rcases po with (_ | d) <;> rcases e9 with h9 | h9 <;>
        simp [capsOf, Evt.note, Caps.setSt, Caps.setEn, Caps.none, userEv, portEv, h9]
      · refine marked_piece (a := p ++ [58, 47, 47]) (x := nm) (b := (userText (some ([], w)) ++ (h ++ (portText po ++ (47 :: db)))))
          (by rw [ht]; cases w <;> simp [userText]) ?_ ?_ <;> rw [htr] <;>
        rcases w with (_ | w) <;> rcases po with (_ | d) <;> rcases e9 with h9 | h9 <;>
        simp [capsOf, Evt.note, Caps.setSt, Caps.setEn, Caps.none, userEv, portEv, userText, h9] <;> omega
    · rcases us with (_ | ⟨nm, (_ | w)⟩)
      · refine marked_none ?_
        rw [htr]
        rcases po with (_ | d) <;> rcases e9 with h9 | h9 <;>
        simp [capsOf, Evt.note, Caps.setSt, Caps.setEn, Caps.none, userEv, portEv, h9]
      · refine marked_none ?_
        rw [htr]
        rcases po with (_ | d) <;> rcases e9 with h9 | h9 <;>
        simp [capsOf, Evt.note, Caps.setSt, Caps.setEn, Caps.none, userEv, portEv, h9]
      · refine marked_piece (a := p ++ [58, 47, 47] ++ nm ++ [58]) (x := w) (b := (64 :: (h ++ (portText po ++ (47 :: db)))))
          (by rw [ht]; simp [userText]) ?_ ?_ <;> rw [htr] <;>
        rcases po with (_ | d) <;> rcases e9 with h9 | h9 <;>
        simp [capsOf, Evt.note, Caps.setSt, Caps.setEn, Caps.none, userEv, portEv, userText, h9] <;> omega
    · refine marked_piece (a := p ++ [58, 47, 47] ++ userText us) (x := h) (b := (portText po ++ (47 :: db)))
          (by rw [ht]; simp) ?_ ?_ <;> rw [htr] <;>
        rcases us with (_ | ⟨nm, (_ | w)⟩) <;> rcases po with (_ | d) <;> rcases e9 with h9 | h9 <;>
        simp [capsOf, Evt.note, Caps.setSt, Caps.setEn, Caps.none, userEv, portEv, userText, h9]
    · rcases po with (_ | d)
      · refine marked_none ?_
        rw [htr]
        rcases us with (_ | ⟨nm, (_ | w)⟩) <;> rcases e9 with h9 | h9 <;>
        simp [capsOf, Evt.note, Caps.setSt, Caps.setEn, Caps.none, userEv, portEv, h9]
      · refine marked_piece (a := p ++ [58, 47, 47] ++ userText us ++ h ++ [58]) (x := d) (b := 47 :: db)
          (by rw [ht]; simp [portText]) ?_ ?_ <;> rw [htr] <;>
        rcases us with (_ | ⟨nm, (_ | w)⟩) <;> rcases e9 with h9 | h9 <;>
        simp [capsOf, Evt.note, Caps.setSt, Caps.setEn, Caps.none, userEv, portEv, userText, h9] <;> omega
    · rcases e9 with h9 | h9
      · rw [h9]
        refine marked_none ?_
        rw [htr]
        rcases us with (_ | ⟨nm, (_ | w)⟩) <;> rcases po with (_ | d) <;>
        simp [capsOf, Evt.note, Caps.setSt, Caps.setEn, Caps.none, userEv, portEv, h9]
      · refine marked_piece (a := p ++ [58, 47, 47] ++ userText us ++ h ++ portText po ++ [47]) (x := db) (b := [])
          (by rw [ht]; simp) ?_ ?_ <;> rw [htr] <;>
        rcases us with (_ | ⟨nm, (_ | w)⟩) <;> rcases po with (_ | d) <;>
        simp [capsOf, Evt.note, Caps.setSt, Caps.setEn, Caps.none, userEv, portEv, userText, h9]
  obtain ⟨g1, g2, g3, g4, g5, g6⟩ := go _ rfl
  simp only [List.mapM_cons, List.mapM_nil, g1, g2, g3, g4, g5, g6]
  rfl

theorem url_none (n : Nat) : ∀ u : List Nat, ¬ [58, 47, 47] <:+: u → search n urlRe u = none := by
  intro u
  have hf : ∀ u : List Nat, ¬ [58, 47, 47] <:+: u → outs n urlRe u = [] := by
    intro u h
    have hp : outs n protoPart u = [] := proto_fails n u (fun hp => h (hp.isInfix.trans (List.dropWhile_suffix _).isInfix))
    rw [show outs n urlRe u = outs n (.cat (.cat (.cat (.cat (.cat protoPart (.opt userPart)) hostPart) (.opt portPart)) (.lit [47])) (.opt (.group 9 (.last (.plus .any))))) u from rfl]
    simp only [outs_cat, hp, andThen, List.flatMap_nil]
  induction u with
  | nil => intro h; simp [search, hf [] h]
  | cons c u ih =>
    intro h
    rw [search_skip (hf _ h)]
    exact ih (fun hi => h (hi.trans (List.suffix_cons c u).isInfix))

/-- C183. Without `://` ParseURL returns false. -/
theorem C183_none (url : List Nat) (h : ¬ sep <:+: url) : ∃ N, ∀ fuel, N ≤ fuel → parseURL fuel url = some none := by
  have hsep : sep = [58, 47, 47] := by decide +kernel
  rw [hsep] at h
  exact findGroups_no (by decide +kernel) url_parse (by decide +kernel) (url_none _ _ h) _

def goodUrl : Url where
  protocol := bytes "http"
  user := some (bytes "me", some (bytes "a/b"))
  host := bytes "kw.com"
  port := some (bytes "80")
  database := bytes "x@y"

example : goodUrl.text = bytes "http://me:a/b@kw.com:80/x@y" := by decide +kernel
example : goodUrl.Ok ∧ goodUrl.Safe := by
  refine ⟨⟨by decide +kernel, ?_, ⟨by decide +kernel, by decide +kernel⟩, ?_⟩, .inl (by simp [goodUrl])⟩
  · intro n w h
    simp only [goodUrl, Option.some.injEq, Prod.mk.injEq] at h
    obtain ⟨rfl, rfl⟩ := h
    refine ⟨by decide +kernel, by decide +kernel, ?_⟩
    intro x hx
    cases hx
    exact ⟨by decide +kernel, by decide +kernel⟩
  · intro d h
    simp only [goodUrl, Option.some.injEq] at h
    subst h
    exact ⟨by decide +kernel, by decide +kernel⟩
example : parseURL 4000 goodUrl.text = some (some [bytes "http", bytes "me", bytes "a/b", bytes "kw.com", bytes "80", bytes "x@y"]) := by decide +kernel
example : parseURL 4000 (bytes "http://h/") = some (some [bytes "http", [], [], bytes "h", [], []]) := by decide +kernel
/-- Without a `/` behind the host it returns false. -/
example : parseURL 4000 (bytes "http://h") = some none := by decide +kernel

/-- `http://host:80/x@y/z` -/
def badUrl : Url where
  protocol := bytes "http"
  user := none
  host := bytes "host"
  port := some (bytes "80")
  database := bytes "x@y/z"

/-- C183, the full statement, is false: the port and a part of the path are taken for a password. -/
theorem C183_refuted : ¬ ∀ u : Url, u.Ok → ∃ N, ∀ fuel, N ≤ fuel → parseURL fuel u.text = some (some
    [u.protocol, (u.user.map Prod.fst).getD [], (u.user.bind Prod.snd).getD [], u.host, u.port.getD [], u.database]) := by
  intro h
  have hok : badUrl.Ok := by
    refine ⟨by decide +kernel, ?_, ⟨by decide +kernel, by decide +kernel⟩, ?_⟩
    · intro n w h; cases h
    · intro d h
      simp only [badUrl, Option.some.injEq] at h
      subst h
      exact ⟨by decide +kernel, by decide +kernel⟩
  obtain ⟨N, hN⟩ := h badUrl hok
  let good : Url := { protocol := bytes "http", user := some (bytes "host", some (bytes "80/x")), host := bytes "y", port := none, database := bytes "z" }
  have hok2 : good.Ok := by
    refine ⟨by decide +kernel, ?_, ⟨by decide +kernel, by decide +kernel⟩, by intro d h; cases h⟩
    intro n w h
    simp only [good, Option.some.injEq, Prod.mk.injEq] at h
    obtain ⟨rfl, rfl⟩ := h
    refine ⟨by decide +kernel, by decide +kernel, ?_⟩
    intro x hx
    cases hx
    exact ⟨by decide +kernel, by decide +kernel⟩
  obtain ⟨M, hM⟩ := C183_url_partial good hok2 (.inr (.inl rfl))
  have h1 := hN (max N M) (Nat.le_max_left _ _)
  have h2 := hM (max N M) (Nat.le_max_right _ _)
  have ht : badUrl.text = good.text := by decide +kernel
  rw [ht, h2] at h1
  exact absurd h1 (by decide +kernel)

end Vital.Regex
