import Verif.Files.Tree
import Verif.Sys.PathsProps
import Mathlib.Data.List.Infix
/-
  FilesDiffer, MakeDirectory and the tests of files of vital/kwiversys/SystemTools.cxx; properties C184, C185.
-/
namespace Vital.Files
open Vital

variable (h : Host)

-- models: vital/kwiversys/SystemTools.cxx:1211-1232 (FileExists)
def fileExists (t : Tree) (s : Str) : Bool := s != [] && access h t s

-- models: vital/kwiversys/SystemTools.cxx:3222-3240 (one trailing slash or backslash is removed)
def stripOne (s : Str) : Str :=
  if 1 < s.length ∧ (s.getLast? = some '/' ∨ s.getLast? = some '\\') ∧ s ≠ c!"/" ∧ s.dropLast.getLast? ≠ some ':' then s.dropLast else s

-- models: vital/kwiversys/SystemTools.cxx:3213-3260 (FileIsDirectory)
def fileIsDirectory (t : Tree) (s : Str) : Bool := s != [] && match stat h t (stripOne s) with
  | some n => n.isDir
  | none => false

-- models: vital/kwiversys/SystemTools.cxx:3262-3287 (FileIsSymlink)
def fileIsSymlink (t : Tree) (s : Str) : Bool := match lstat h t s with
  | some (.link _) => true
  | _ => false

def Node.mode : Node → Nat
  | .file _ m => m
  | .link _ => 0o777
  | .dir m _ => m

-- models: vital/kwiversys/SystemTools.cxx:4766-4809 (GetPermissions)
def getPermissions (t : Tree) (s : Str) : Option Nat := (stat h t s).map Node.mode

-- models: vital/kwiversys/SystemTools.cxx:4824-4851 (SetPermissions)
def setPermissions (t : Tree) (s : Str) (m : Nat) : Bool × Tree :=
  if s = [] ∨ (stat h t s).isNone then (false, t)
  else match chmod h t s m with
    | .ok t' => (true, t')
    | .error _ => (false, t)

-- models: vital/kwiversys/SystemTools.cxx:2758-2797 (RemoveFile)
def removeFile (t : Tree) (s : Str) : Bool × Tree := match unlink h t s with
  | .ok t' => (true, t')
  | .error .noent => (true, t)
  | .error _ => (false, t)

/-! ### FilesDiffer -/

def sizeOf (p : Path) : Node → Nat
  | .file b _ => b.length
  | .link s => s.length
  | .dir _ _ => h.dirSize p

-- models: vital/kwiversys/SystemTools.cxx:2336-2366 (the loop over blocks; `true`: different); `read` gives as many bytes as there are
def differLoop : Nat → Nat → List Nat → List Nat → Bool
  | 0, _, _, _ => false
  | k + 1, nleft, a, b =>
    if nleft = 0 then false
    else
      let nnext := if 4096 < nleft then 4096 else nleft
      if (a.take nnext).length ≠ nnext ∨ (b.take nnext).length ≠ nnext then true
      else if a.take nnext ≠ b.take nnext then true
      else differLoop k (nleft - nnext) (a.drop nnext) (b.drop nnext)

-- models: vital/kwiversys/SystemTools.cxx:2265-2370 (FilesDiffer)
def filesDiffer (t : Tree) (src dst : Str) : Bool :=
  match locate h t src, locate h t dst with
  | .ok p, .ok q =>
    match get t p, get t q with
    | some n, some m =>
      if sizeOf h p n ≠ sizeOf h q m then true
      else if sizeOf h p n = 0 then false
      else match openRead h t src, openRead h t dst with
        | some (_, a), some (_, b) => differLoop (sizeOf h p n) (sizeOf h p n) a b
        | _, _ => true
    | _, _ => true
  | _, _ => true

theorem differ_spec : ∀ (k n : Nat) (a b : List Nat), n ≤ k → a.length = n → b.length = n → (differLoop k n a b = false ↔ a = b) := by
  intro k
  induction k with
  | zero =>
    intro n a b hk ha hb
    have : a = [] := List.eq_nil_of_length_eq_zero (by omega)
    have : b = [] := List.eq_nil_of_length_eq_zero (by omega)
    simp [differLoop, *]
  | succ k ih =>
    intro n a b hk ha hb
    unfold differLoop
    by_cases h0 : n = 0
    · have : a = [] := List.eq_nil_of_length_eq_zero (by omega)
      have : b = [] := List.eq_nil_of_length_eq_zero (by omega)
      simp [*]
    · rw [if_neg h0]
      have hn : ∃ nn, (if 4096 < n then 4096 else n) = nn ∧ 0 < nn ∧ nn ≤ n := by
        by_cases h4 : 4096 < n
        · exact ⟨4096, by simp [h4], by omega, by omega⟩
        · exact ⟨n, by simp [h4], by omega, by omega⟩
      obtain ⟨nn, e, hn1, hn2⟩ := hn
      simp only [e]
      have e1 : (a.take nn).length = nn := by simp; omega
      have e2 : (b.take nn).length = nn := by simp; omega
      rw [if_neg (by rw [e1, e2]; simp)]
      by_cases hab : a.take nn = b.take nn
      · rw [if_neg (by simp [hab]), ih (n - nn) (a.drop nn) (b.drop nn) (by omega) (by simp; omega) (by simp; omega)]
        constructor
        · intro hd
          rw [← List.take_append_drop nn a, ← List.take_append_drop nn b, hab, hd]
        · rintro rfl; rfl
      · rw [if_pos hab]
        constructor
        · intro hf; cases hf
        · rintro rfl; exact absurd rfl hab

/-- C184. FilesDiffer returns false for two readable regular files exactly if they hold the same bytes, whatever their sizes; it returns true if one of them is not there. -/
theorem C184_differ (t : Tree) (src dst : Str) :
    (∀ p q a b m m', locate h t src = .ok p → locate h t dst = .ok q → get t p = some (.file a m) → get t q = some (.file b m') →
      h.may .read t p = true → h.may .read t q = true → (filesDiffer h t src dst = false ↔ a = b)) ∧
    (stat h t src = none ∨ stat h t dst = none → filesDiffer h t src dst = true) := by
  constructor
  · intro p q a b m m' hp hq hgp hgq hrp hrq
    unfold filesDiffer
    simp only [hp, hq, hgp, hgq, sizeOf, openRead, hrp, hrq, if_true]
    by_cases hl : a.length = b.length
    · rw [if_neg (by simp [hl])]
      by_cases h0 : a.length = 0
      · have : a = [] := List.eq_nil_of_length_eq_zero h0
        have : b = [] := List.eq_nil_of_length_eq_zero (by omega)
        simp [*]
      · rw [if_neg h0, differ_spec a.length a.length a b (by omega) rfl hl.symm]
    · rw [if_pos hl]
      constructor
      · intro hf; cases hf
      · rintro rfl; exact absurd rfl hl
  · intro hs
    unfold filesDiffer
    unfold stat at hs
    cases hp : locate h t src with
    | error e => rfl
    | ok p =>
      cases hq : locate h t dst with
      | error e => rfl
      | ok q =>
        simp only [hp, hq] at hs ⊢
        rcases hs with hs | hs
        · rw [hs]
        · rw [hs]; cases get t p <;> rfl

/-! ### MakeDirectory -/

/-- The texts before each slash. -/
def cuts (pre : Str) : Str → List Str
  | [] => []
  | c :: s => if c = '/' then pre :: cuts (pre ++ [c]) s else cuts (pre ++ [c]) s

def tryMkdir (t : Tree) (s : Str) : Tree := match mkdir h t s with
  | .ok t' => t'
  | .error _ => t

-- models: vital/kwiversys/SystemTools.cxx:733-771 (MakeDirectory)
def makeDirectory (t : Tree) (s : Str) : Bool × Tree :=
  if fileExists h t s then (fileIsDirectory h t s, t)
  else if s = [] then (false, t)
  else
    let dir := Sys.convertToUnixSlashes h.world s
    let t := (cuts [] dir).foldl (tryMkdir h) t
    match mkdir h t dir with
    | .ok t' => (true, t')
    | .error .exist => (true, t)
    | .error _ => (false, t)

theorem place_dir {t : Tree} {s : Str} {p : Path} (hp : place h t s = .ok p) : ∃ q c m es, p = q ++ [c] ∧ get t q = some (.dir m es) := by
  unfold place at hp
  split at hp
  · cases hp
  · split at hp
    · cases hp
    · rename_i c _
      split at hp
      · cases hp
      · split at hp
        · cases hp
        · rename_i q _
          split at hp
          · rename_i m es hg
            cases hp
            exact ⟨q, c, m, es, rfl, hg⟩
          · cases hp
          · cases hp

theorem place_hasDir {t : Tree} {s : Str} {p : Path} (hp : place h t s = .ok p) : HasDir t p := by
  obtain ⟨q, c, m, es, rfl, hg⟩ := place_dir h hp
  exact hasDir_snoc hg c

theorem mkdir_ok {t t' : Tree} {s : Str} (hm : mkdir h t s = .ok t') :
    ∃ p, place h t s = .ok p ∧ get t p = none ∧ HasDir t p ∧ t' = alter (fun _ => some (.dir h.dirMode [])) t p := by
  unfold mkdir at hm
  cases hp : place h t s with
  | error e => rw [hp] at hm; cases hm
  | ok p =>
    rw [hp] at hm
    simp only at hm
    by_cases h1 : (get t p).isSome = true
    · rw [if_pos h1] at hm; cases hm
    · rw [if_neg h1] at hm
      split at hm
      · cases hm
        exact ⟨p, rfl, by simpa using h1, place_hasDir h hp, rfl⟩
      · cases hm

/-- Everything that was there is as it was, and what is new are directories of the paths `S`. -/
def Grows (S : Path → Prop) (t t' : Tree) : Prop := ∀ q,
  (see t q ≠ none → see t' q = see t q) ∧ (see t q = none → see t' q = none ∨ (S q ∧ see t' q = some (.dir h.dirMode)))

theorem grows_refl (S : Path → Prop) (t : Tree) : Grows h S t t := fun _ => ⟨fun _ => rfl, fun e => .inl e⟩

theorem grows_trans {S : Path → Prop} {t1 t2 t3 : Tree} (h1 : Grows h S t1 t2) (h2 : Grows h S t2 t3) : Grows h S t1 t3 := by
  intro q
  obtain ⟨a1, b1⟩ := h1 q
  obtain ⟨a2, b2⟩ := h2 q
  refine ⟨fun hq => ?_, fun hq => ?_⟩
  · have e := a1 hq
    rw [a2 (by rw [e]; exact hq), e]
  · rcases b1 hq with e | ⟨hS, e⟩
    · exact b2 e
    · right
      refine ⟨hS, ?_⟩
      rw [a2 (by rw [e]; simp), e]

theorem grows_mono {S S' : Path → Prop} (hS : ∀ q, S q → S' q) {t t' : Tree} (hg : Grows h S t t') : Grows h S' t t' :=
  fun q => ⟨(hg q).1, fun e => ((hg q).2 e).imp_right fun x => ⟨hS q x.1, x.2⟩⟩

theorem see_below_none {t : Tree} {p q : Path} (hp : get t p = none) (hq : p <+: q) : see t q = none := by
  obtain ⟨r, rfl⟩ := hq
  unfold see
  rw [get_append, hp, get_none]; rfl

theorem alter_mk {t : Tree} {p : Path} (h1 : get t p = none) (h2 : HasDir t p) :
    Grows h (· = p) t (alter (fun _ => some (.dir h.dirMode [])) t p) := by
  intro q
  by_cases hq : p <+: q
  · have hn := see_below_none h1 hq
    refine ⟨fun x => absurd hn x, fun _ => ?_⟩
    obtain ⟨r, rfl⟩ := hq
    unfold see
    rw [alter_below _ _ _ _ h2]
    cases r with
    | nil => right; simp [Node.obs]
    | cons c r => left; rw [get_dir, find_nil, get_none]; rfl
  · rw [alter_see _ _ _ _ hq]
    exact ⟨fun _ => rfl, fun e => .inl e⟩

theorem mkdir_grows {t t' : Tree} {s : Str} (hm : mkdir h t s = .ok t') : ∃ p, place h t s = .ok p ∧ Grows h (· = p) t t' := by
  obtain ⟨p, hp, h1, h2, rfl⟩ := mkdir_ok h hm
  exact ⟨p, hp, alter_mk h h1 h2⟩

theorem tryMkdir_grows (t : Tree) (s : Str) : Grows h (fun _ => True) t (tryMkdir h t s) := by
  unfold tryMkdir
  cases hm : mkdir h t s with
  | error e => exact grows_refl h _ t
  | ok t' =>
    obtain ⟨p, _, hg⟩ := mkdir_grows h hm
    exact grows_mono h (fun _ _ => trivial) hg

theorem fold_grows (l : List Str) (t : Tree) : Grows h (fun _ => True) t (l.foldl (tryMkdir h) t) := by
  induction l generalizing t with
  | nil => exact grows_refl h _ t
  | cons s l ih => exact grows_trans h (tryMkdir_grows h t s) (ih _)

/-- C185. Whatever the text, MakeDirectory changes nothing that is there; all it adds are directories. -/
theorem C185_only_adds (t : Tree) (s : Str) (q : Path) :
    (see t q ≠ none → see (makeDirectory h t s).2 q = see t q) ∧
    (see t q = none → see (makeDirectory h t s).2 q = none ∨ see (makeDirectory h t s).2 q = some (.dir h.dirMode)) := by
  have key : Grows h (fun _ => True) t (makeDirectory h t s).2 := by
    unfold makeDirectory
    split
    · exact grows_refl h _ t
    · split
      · exact grows_refl h _ t
      · have hf := fold_grows h (cuts [] (Sys.convertToUnixSlashes h.world s)) t
        simp only
        cases hm : mkdir h ((cuts [] (Sys.convertToUnixSlashes h.world s)).foldl (tryMkdir h) t) (Sys.convertToUnixSlashes h.world s) with
        | ok t' =>
          obtain ⟨p, _, hg⟩ := mkdir_grows h hm
          exact grows_trans h hf (grows_mono h (fun _ _ => trivial) hg)
        | error e => cases e <;> exact hf
  exact ⟨(key q).1, fun e => ((key q).2 e).imp_right And.right⟩

/-! ### Plain paths -/

/-- Names as most paths have them: not empty, not `.` or `..`, no slash and no backslash. -/
def Plain (p : Path) : Prop := ∀ c ∈ p, Name c ∧ '\\' ∉ c

/-- No symbolic link on the way to `p`, or at `p`. -/
def NoLinks (t : Tree) (p : Path) : Prop := ∀ q, q <+: p → ∀ s, get t q ≠ some (.link s)

theorem walk_plain {t : Tree} : ∀ (p : Path) (k : Nat) (cur : Path) {r : Path}, (∀ c ∈ p, Name c) →
    (∀ q, q <+: p → ∀ s, get t (cur ++ q) ≠ some (.link s)) → walk t k cur p = .ok r → r = cur ++ p := by
  intro p
  induction p with
  | nil =>
    intro k cur r _ _ hw
    cases k with
    | zero => cases hw
    | succ k => simp only [walk, Except.ok.injEq] at hw; simp [hw]
  | cons c p ih =>
    intro k cur r hn hl hw
    cases k with
    | zero => cases hw
    | succ k =>
      obtain ⟨n1, n2, n3, _⟩ := hn c (by simp)
      simp only [walk] at hw
      cases hc : get t cur with
      | none => rw [hc] at hw; cases hw
      | some x =>
        cases x with
        | file b m => rw [hc] at hw; cases hw
        | link s => rw [hc] at hw; cases hw
        | dir m es =>
          rw [hc] at hw
          simp only [n1, n2, n3, false_or, if_false] at hw
          cases hd : get t (cur ++ [c]) with
          | none => rw [hd] at hw; cases hw
          | some y =>
            have hstep : ∀ r, walk t k (cur ++ [c]) p = .ok r → r = cur ++ c :: p := by
              intro r hr
              have := ih k (cur ++ [c]) (fun d hd => hn d (by simp [hd])) (fun q hq s => by
                have := hl (c :: q) (List.cons_prefix_cons.2 ⟨rfl, hq⟩) s
                simpa using this) hr
              simpa using this
            cases y with
            | link s => exact absurd hd (hl [c] (by simp) s)
            | file b m => rw [hd] at hw; exact hstep r hw
            | dir m es => rw [hd] at hw; exact hstep r hw

theorem walk_there {t : Tree} : ∀ (p : Path) (k : Nat) (cur : Path) {n : Node}, (∀ c ∈ p, Name c) →
    (∀ q, q <+: p → ∀ s, get t (cur ++ q) ≠ some (.link s)) → get t (cur ++ p) = some n → p.length < k → walk t k cur p = .ok (cur ++ p) := by
  intro p
  induction p with
  | nil =>
    intro k cur n _ _ _ hk
    cases k with
    | zero => omega
    | succ k => simp [walk]
  | cons c p ih =>
    intro k cur n hn hl hg hk
    cases k with
    | zero => simp at hk
    | succ k =>
      obtain ⟨n1, n2, n3, _⟩ := hn c (by simp)
      obtain ⟨m, es, hc⟩ := prefix_dir hg (q := cur) (List.prefix_append _ _) (by simp)
      have e : cur ++ c :: p = (cur ++ [c]) ++ p := by simp
      have hstep := ih k (cur ++ [c]) (n := n) (fun d hd => hn d (by simp [hd])) (fun q hq s => by
        have := hl (c :: q) (List.cons_prefix_cons.2 ⟨rfl, hq⟩) s
        simpa using this) (by rw [← e]; exact hg) (by simp at hk; omega)
      simp only [walk, hc, n1, n2, n3, false_or, if_false]
      rw [e, get_append] at hg
      cases hd : get t (cur ++ [c]) with
      | none => rw [hd] at hg; cases hg
      | some y =>
        cases y with
        | link s => exact absurd hd (hl [c] (by simp) s)
        | file b m => rw [hstep, e]
        | dir m es => rw [hstep, e]

theorem text_append (p q : Path) : text (p ++ q) = text p ++ text q := by simp [text]

theorem text_snoc (p : Path) (c : Str) : text (p ++ [c]) = text p ++ '/' :: c := by simp [text]

theorem text_ne {p : Path} (hp : p ≠ []) : text p ≠ [] := by
  cases p with
  | nil => exact absurd rfl hp
  | cons c p => simp [text]

theorem text_head {p : Path} (hp : p ≠ []) : (text p).head? = some '/' := by
  cases p with
  | nil => exact absurd rfl hp
  | cons c p => simp [text]

theorem text_last {p : Path} {c : Str} (hc : Name c) : ∃ a, a ∈ c ∧ (text (p ++ [c])).getLast? = some a := by
  cases hl : c.getLast? with
  | none => exact absurd (List.getLast?_eq_none_iff.1 hl) hc.1
  | some a =>
    refine ⟨a, List.mem_of_getLast? hl, ?_⟩
    rw [text_snoc, List.getLast?_append]
    have : ('/' :: c).getLast? = some a := by
      cases c with
      | nil => cases hl
      | cons b c => rw [List.getLast?_cons_cons]; exact hl
    rw [this]; rfl

theorem dropSlashes_text {p : Path} {c : Str} (hc : Name c) : dropSlashes (text (p ++ [c])) = text (p ++ [c]) := by
  obtain ⟨a, ha, hl⟩ := text_last (p := p) hc
  have : a ≠ '/' := by rintro rfl; exact hc.2.2.2 ha
  unfold dropSlashes
  have hr : (text (p ++ [c])).reverse.head? = some a := by rw [List.head?_reverse]; exact hl
  cases he : (text (p ++ [c])).reverse with
  | nil => rw [he] at hr; cases hr
  | cons b l =>
    rw [he] at hr
    simp only [List.head?_cons, Option.some.injEq] at hr
    subst hr
    rw [List.dropWhile_cons, if_neg (by simp [this]), ← he, List.reverse_reverse]

theorem stripOne_text {p : Path} {c : Str} (hc : Name c) (hb : '\\' ∉ c) : stripOne (text (p ++ [c])) = text (p ++ [c]) := by
  obtain ⟨a, ha, hl⟩ := text_last (p := p) hc
  unfold stripOne
  rw [if_neg]
  rintro ⟨_, h1 | h1, _⟩
  · rw [hl] at h1; cases h1; exact hc.2.2.2 ha
  · rw [hl] at h1; cases h1; exact hb ha

variable {h}

theorem locate_there {t : Tree} {p : Path} {n : Node} (hne : p ≠ []) (hn : ∀ c ∈ p, Name c) (hl : NoLinks t p) (hg : get t p = some n) (hk : p.length + 1 < h.steps) :
    locate h t (text p) = .ok p := by
  unfold locate
  rw [if_neg (text_ne hne), pieces_text p (fun c hc => (hn c hc).2.2.2)]
  unfold start
  rw [if_pos (text_head hne)]
  obtain ⟨m, es, hr⟩ := prefix_dir hg (q := []) (List.nil_prefix) (fun e => hne e.symm)
  obtain ⟨k, hk'⟩ : ∃ k, h.steps = k + 1 := ⟨h.steps - 1, by omega⟩
  rw [hk']
  simp only [walk, hr, true_or, if_true]
  exact walk_there p k [] hn hl (by simpa using hg) (by omega)

theorem locate_plain {t : Tree} {p r : Path} (hne : p ≠ []) (hn : ∀ c ∈ p, Name c) (hl : NoLinks t p) (hg : locate h t (text p) = .ok r) : r = p := by
  unfold locate at hg
  rw [if_neg (text_ne hne), pieces_text p (fun c hc => (hn c hc).2.2.2)] at hg
  unfold start at hg
  rw [if_pos (text_head hne)] at hg
  cases hk : h.steps with
  | zero => rw [hk] at hg; cases hg
  | succ k =>
    rw [hk] at hg
    simp only [walk] at hg
    cases hc : get t [] with
    | none => rw [hc] at hg; cases hg
    | some x =>
      cases x with
      | file b m => rw [hc] at hg; cases hg
      | link s => rw [hc] at hg; cases hg
      | dir m es =>
        rw [hc] at hg
        simp only [true_or, if_true] at hg
        have := walk_plain p k [] hn hl hg
        simpa using this

theorem noLinks_prefix {t : Tree} {p q : Path} (hl : NoLinks t p) (hq : q <+: p) : NoLinks t q := fun r hr s => hl r (hr.trans hq) s

theorem place_there {t : Tree} {p : Path} {c : Str} {m : Nat} {es : List (Str × Node)} (hn : ∀ d ∈ p, Name d) (hc : Name c) (hl : NoLinks t p)
    (hg : get t p = some (.dir m es)) (hk : p.length + 1 < h.steps) : place h t (text (p ++ [c])) = .ok (p ++ [c]) := by
  unfold place
  have hs : ∀ d ∈ p ++ [c], '/' ∉ d := by
    intro d hd
    rcases List.mem_append.1 hd with hd | hd
    · exact (hn d hd).2.2.2
    · rw [List.mem_singleton] at hd; subst hd; exact hc.2.2.2
  rw [if_neg (text_ne (by simp)), dropSlashes_text hc, pieces_text _ hs]
  have e1 : ([] :: (p ++ [c])).getLast? = some c := by
    rw [show ([] : Str) :: (p ++ [c]) = ([] :: p) ++ [c] from rfl, List.getLast?_append]; rfl
  have e2 : (([] : Str) :: (p ++ [c])).dropLast = [] :: p := by
    rw [show ([] : Str) :: (p ++ [c]) = ([] :: p) ++ [c] from rfl, List.dropLast_concat]
  simp only [e1, e2]
  rw [if_neg (by simp only [not_or]; exact ⟨hc.1, hc.2.1, hc.2.2.1⟩)]
  have hw : walk t h.steps (start h (text (p ++ [c]))) ([] :: p) = .ok p := by
    unfold start
    rw [if_pos (text_head (by simp))]
    obtain ⟨k, hk'⟩ : ∃ k, h.steps = k + 1 := ⟨h.steps - 1, by omega⟩
    rw [hk']
    have hr : ∃ m es, get t [] = some (.dir m es) := by
      by_cases hp : p = []
      · subst hp; exact ⟨m, es, hg⟩
      · exact prefix_dir hg (List.nil_prefix) (fun e => hp e.symm)
    obtain ⟨m', es', hr⟩ := hr
    simp only [walk, hr, true_or, if_true]
    exact walk_there p k [] hn hl (by simpa using hg) (by omega)
  rw [hw]
  simp only [hg]

theorem place_plain {t : Tree} {p r : Path} {c : Str} (hn : ∀ d ∈ p, Name d) (hc : Name c) (hl : NoLinks t p)
    (hg : place h t (text (p ++ [c])) = .ok r) : r = p ++ [c] ∧ ∃ m es, get t p = some (.dir m es) := by
  unfold place at hg
  have hs : ∀ d ∈ p ++ [c], '/' ∉ d := by
    intro d hd
    rcases List.mem_append.1 hd with hd | hd
    · exact (hn d hd).2.2.2
    · rw [List.mem_singleton] at hd; subst hd; exact hc.2.2.2
  rw [if_neg (text_ne (by simp)), dropSlashes_text hc, pieces_text _ hs] at hg
  have e1 : ([] :: (p ++ [c])).getLast? = some c := by
    rw [show ([] : Str) :: (p ++ [c]) = ([] :: p) ++ [c] from rfl, List.getLast?_append]; rfl
  have e2 : (([] : Str) :: (p ++ [c])).dropLast = [] :: p := by
    rw [show ([] : Str) :: (p ++ [c]) = ([] :: p) ++ [c] from rfl, List.dropLast_concat]
  simp only [e1, e2] at hg
  rw [if_neg (by simp only [not_or]; exact ⟨hc.1, hc.2.1, hc.2.2.1⟩)] at hg
  cases hw : walk t h.steps (start h (text (p ++ [c]))) ([] :: p) with
  | error e => rw [hw] at hg; cases hg
  | ok q =>
    rw [hw] at hg
    simp only at hg
    have hq : q = p := by
      unfold start at hw
      rw [if_pos (text_head (by simp))] at hw
      cases hk : h.steps with
      | zero => rw [hk] at hw; cases hw
      | succ k =>
        rw [hk] at hw
        simp only [walk] at hw
        cases hc : get t [] with
        | none => rw [hc] at hw; cases hw
        | some x =>
          cases x with
          | file b m => rw [hc] at hw; cases hw
          | link s => rw [hc] at hw; cases hw
          | dir m es =>
            rw [hc] at hw
            simp only [true_or, if_true] at hw
            have := walk_plain p k [] hn hl hw
            simpa using this
    subst hq
    cases hx : get t q with
    | none => rw [hx] at hg; cases hg
    | some x =>
      cases x with
      | file b m => rw [hx] at hg; cases hg
      | link s => rw [hx] at hg; cases hg
      | dir m es => rw [hx] at hg; cases hg; exact ⟨rfl, m, es, rfl⟩

theorem walk_error {t : Tree} : ∀ (k : Nat) (cur : Path) (l : List Str), walk t k cur l ≠ .error .exist := by
  intro k
  induction k with
  | zero => intro cur l hw; cases hw
  | succ k ih =>
    intro cur l
    cases l with
    | nil => intro hw; cases hw
    | cons c l =>
      intro hw
      simp only [walk] at hw
      split at hw
      · split at hw
        · exact ih _ _ hw
        · split at hw
          · exact ih _ _ hw
          · split at hw
            · exact ih _ _ hw
            · exact ih _ _ hw
            · cases hw
      · cases hw
      · cases hw

theorem place_error {t : Tree} {p : Path} {c : Str} (hn : ∀ d ∈ p, Name d) (hc : Name c) : place h t (text (p ++ [c])) ≠ .error .exist := by
  unfold place
  have hs : ∀ d ∈ p ++ [c], '/' ∉ d := by
    intro d hd
    rcases List.mem_append.1 hd with hd | hd
    · exact (hn d hd).2.2.2
    · rw [List.mem_singleton] at hd; subst hd; exact hc.2.2.2
  rw [if_neg (text_ne (by simp)), dropSlashes_text hc, pieces_text _ hs]
  have e1 : ([] :: (p ++ [c])).getLast? = some c := by
    rw [show ([] : Str) :: (p ++ [c]) = ([] :: p) ++ [c] from rfl, List.getLast?_append]; rfl
  simp only [e1]
  rw [if_neg (by simp only [not_or]; exact ⟨hc.1, hc.2.1, hc.2.2.1⟩)]
  split
  · rename_i e he
    intro hx
    cases hx
    exact walk_error _ _ _ he
  · split
    · intro hx; cases hx
    · intro hx; cases hx
    · intro hx; cases hx

theorem mkdir_plain {t : Tree} {p : Path} {c : Str} (hn : ∀ d ∈ p, Name d) (hc : Name c) (hl : NoLinks t p) :
    (∀ t', mkdir h t (text (p ++ [c])) = .ok t' → Grows h (· = p ++ [c]) t t' ∧ ∃ m es, get t' (p ++ [c]) = some (.dir m es)) ∧
    (mkdir h t (text (p ++ [c])) = .error .exist → (get t (p ++ [c])).isSome = true) := by
  constructor
  · intro t' hm
    obtain ⟨r, hr, h1, h2, rfl⟩ := mkdir_ok h hm
    obtain ⟨rfl, _⟩ := place_plain hn hc hl hr
    exact ⟨alter_mk h h1 h2, h.dirMode, [], by rw [alter_at _ _ _ h2]⟩
  · intro hm
    unfold mkdir at hm
    cases hp : place h t (text (p ++ [c])) with
    | error e =>
      rw [hp] at hm
      cases hm
      exact absurd hp (place_error hn hc)
    | ok r =>
      rw [hp] at hm
      obtain ⟨rfl, _⟩ := place_plain hn hc hl hp
      simp only at hm
      by_cases h1 : (get t (p ++ [c])).isSome = true
      · exact h1
      · rw [if_neg h1] at hm
        split at hm <;> cases hm

theorem see_link {t : Tree} {q : Path} {s : Str} : get t q = some (.link s) ↔ see t q = some (.link s) := by
  unfold see
  cases get t q with
  | none => simp
  | some n => cases n <;> simp [Node.obs]

theorem see_dir {t : Tree} {q : Path} {m : Nat} : (∃ es, get t q = some (.dir m es)) ↔ see t q = some (.dir m) := by
  unfold see
  cases get t q with
  | none => simp
  | some n => cases n <;> simp [Node.obs, eq_comm]

theorem see_none {t : Tree} {q : Path} : get t q = none ↔ see t q = none := by
  unfold see
  cases get t q <;> simp

theorem noLinks_grows {S : Path → Prop} {t t' : Tree} {p : Path} (hg : Grows h S t t') (hl : NoLinks t p) : NoLinks t' p := by
  intro q hq s hs
  rw [see_link] at hs
  by_cases hn : see t q = none
  · rcases (hg q).2 hn with e | ⟨_, e⟩ <;> (rw [e] at hs; cases hs)
  · rw [(hg q).1 hn, ← see_link] at hs
    exact hl q hq s hs

/-- Each prefix is missing or a directory. -/
def Free (t : Tree) (p : Path) : Prop := ∀ q, q <+: p → get t q = none ∨ ∃ m es, get t q = some (.dir m es)

theorem free_grows {S : Path → Prop} {t t' : Tree} {p : Path} (hg : Grows h S t t') (hf : Free t p) : Free t' p := by
  intro q hq
  rcases hf q hq with hn | ⟨m, es, hd⟩
  · rcases (hg q).2 (see_none.1 hn) with e | ⟨_, e⟩
    · exact .inl (see_none.2 e)
    · obtain ⟨es, he⟩ := see_dir.2 e
      exact .inr ⟨_, es, he⟩
  · have hs : see t q = some (.dir m) := see_dir.1 ⟨es, hd⟩
    have := (hg q).1 (by rw [hs]; simp)
    obtain ⟨es', he⟩ := see_dir.2 (this.trans hs)
    exact .inr ⟨_, es', he⟩

theorem dir_grows {S : Path → Prop} {t t' : Tree} {q : Path} (hg : Grows h S t t') (hd : ∃ m es, get t q = some (.dir m es)) : ∃ m es, get t' q = some (.dir m es) := by
  obtain ⟨m, es, hd⟩ := hd
  have hs : see t q = some (.dir m) := see_dir.1 ⟨es, hd⟩
  have := (hg q).1 (by rw [hs]; simp)
  obtain ⟨es', he⟩ := see_dir.2 (this.trans hs)
  exact ⟨_, es', he⟩

theorem cuts_text (q p : Path) (hp : ∀ c ∈ p, '/' ∉ c) : cuts (text q) (text p) = match p with
    | [] => []
    | c :: p => text q :: cuts (text (q ++ [c])) (text p) := by
  cases p with
  | nil => rfl
  | cons c p =>
    have aux : ∀ (d pre : Str) (r : Str), '/' ∉ d → cuts pre (d ++ r) = cuts (pre ++ d) r := by
      intro d
      induction d with
      | nil => intro pre r _; simp
      | cons a d ih =>
        intro pre r hd
        simp only [List.mem_cons, not_or] at hd
        rw [List.cons_append, cuts, if_neg (fun e => hd.1 e.symm), ih _ _ hd.2]; simp
    show cuts (text q) (text (c :: p)) = text q :: cuts (text (q ++ [c])) (text p)
    rw [show text (c :: p) = '/' :: (c ++ text p) by simp [text], cuts, if_pos rfl, aux c _ _ (hp c (by simp)), text_snoc]
    simp

theorem tryMkdir_plain {t : Tree} {p : Path} {c : Str} (hn : ∀ d ∈ p, Name d) (hc : Name c) (hl : NoLinks t p) :
    Grows h (· = p ++ [c]) t (tryMkdir h t (text (p ++ [c]))) := by
  unfold tryMkdir
  cases hm : mkdir h t (text (p ++ [c])) with
  | error e => exact grows_refl h _ t
  | ok t' => exact ((mkdir_plain hn hc hl).1 t' hm).1

theorem tryMkdir_nil (t : Tree) : tryMkdir h t (text []) = t := rfl

/-- A permitted `mkdir` where the directory is there and nothing stands in the way. -/
theorem tryMkdir_makes {t : Tree} {p : Path} {c : Str} (hn : ∀ d ∈ p, Name d) (hc : Name c) (hl : NoLinks t p) (hd : ∃ m es, get t p = some (.dir m es))
    (hf : get t (p ++ [c]) = none ∨ ∃ m es, get t (p ++ [c]) = some (.dir m es)) (hk : p.length + 1 < h.steps) (hm : ∀ t q, h.may .mkdir t q = true) :
    ∃ m es, get (tryMkdir h t (text (p ++ [c]))) (p ++ [c]) = some (.dir m es) := by
  obtain ⟨m, es, hd⟩ := hd
  have hp := place_there (h := h) hn hc hl hd hk
  rcases hf with hf | ⟨m', es', hf⟩
  · have : mkdir h t (text (p ++ [c])) = .ok (alter (fun _ => some (.dir h.dirMode [])) t (p ++ [c])) := by
      unfold mkdir
      simp only [hp, hf, hm]; rfl
    unfold tryMkdir
    rw [this]
    exact ⟨h.dirMode, [], by rw [alter_at _ _ _ (hasDir_snoc hd c)]⟩
  · have : mkdir h t (text (p ++ [c])) = .error .exist := by
      unfold mkdir
      simp only [hp, hf]; rfl
    unfold tryMkdir
    rw [this]
    exact ⟨m', es', hf⟩

/-- The directory of a path, the root for the root. -/
theorem fold_plain : ∀ (p q : Path) (t : Tree), (∀ d ∈ q ++ p, Name d) → NoLinks t (q ++ p) →
    Grows h (fun x => x <+: q ++ p) t ((cuts (text q) (text p)).foldl (tryMkdir h) t) ∧
    ((∃ m es, get t q.dropLast = some (.dir m es)) → Free t (q ++ p) → (q ++ p).length + 1 < h.steps → (∀ t q, h.may .mkdir t q = true) →
      ∃ m es, get ((cuts (text q) (text p)).foldl (tryMkdir h) t) (q ++ p).dropLast = some (.dir m es)) := by
  intro p
  induction p with
  | nil =>
    intro q t hn hl
    rw [cuts_text q [] (by simp)]
    simp only [List.foldl_nil]
    refine ⟨grows_refl h _ t, ?_⟩
    intro hd _ _ _
    rw [List.append_nil]; exact hd
  | cons c p ih =>
    intro q t hn hl
    rw [cuts_text q (c :: p) (fun d hd => (hn d (by simp [hd])).2.2.2)]
    simp only [List.foldl_cons]
    have hgq : Grows h (fun x => x <+: q ++ c :: p) t (tryMkdir h t (text q)) := by
      rcases List.eq_nil_or_concat q with rfl | ⟨q', d, rfl⟩
      · rw [tryMkdir_nil]; exact grows_refl h _ t
      · rw [List.concat_eq_append] at *
        refine grows_mono h ?_ (tryMkdir_plain (fun e he => hn e (by simp [he])) (hn d (by simp))
          (noLinks_prefix hl ⟨d :: c :: p, by simp⟩))
        rintro x rfl
        exact List.prefix_append _ _
    have e : q ++ c :: p = (q ++ [c]) ++ p := by simp
    obtain ⟨i1, i2⟩ := ih (q ++ [c]) (tryMkdir h t (text q)) (by rw [← e]; exact hn) (by rw [← e]; exact noLinks_grows hgq hl)
    rw [← e] at i1 i2
    refine ⟨grows_trans h hgq i1, ?_⟩
    intro hd hf hk hm
    apply i2
    · rw [List.dropLast_concat]
      rcases List.eq_nil_or_concat q with rfl | ⟨q', d, rfl⟩
      · rw [tryMkdir_nil]; simpa using hd
      · rw [List.concat_eq_append] at *
        rw [List.dropLast_concat] at hd
        exact tryMkdir_makes (fun e he => hn e (by simp [he])) (hn d (by simp)) (noLinks_prefix hl ⟨d :: c :: p, by simp⟩) hd
          (hf _ ⟨c :: p, by simp⟩) (by simp at hk ⊢; omega) hm
    · exact free_grows hgq hf
    · exact hk
    · exact hm

theorem convert_text {p : Path} (hne : p ≠ []) (hp : Plain p) : Sys.convertToUnixSlashes h.world (text p) = text p := by
  apply Sys.convert_normal
  have nb : ∀ p : Path, Plain p → '\\' ∉ text p := by
    intro p
    induction p with
    | nil => intro _; simp [text]
    | cons c p ih =>
      intro hp
      rw [show text (c :: p) = '/' :: (c ++ text p) by simp [text]]
      simp only [List.mem_cons, List.mem_append, not_or]
      exact ⟨by decide, (hp c (by simp)).2, ih (fun d hd => hp d (by simp [hd]))⟩
  refine ⟨nb p hp, ?_, ?_, ?_⟩
  · intro a b he
    have h1 := pieces_text p (fun c hc => (hp c hc).1.2.2.2)
    have h2 : ∀ a b : Str, [] ∈ (pieces (a ++ '/' :: '/' :: b)).tail := by
      intro a
      induction a with
      | nil => intro b; simp [pieces]
      | cons x a ih =>
        intro b
        have := ih b
        rw [List.cons_append, pieces]
        split
        · rw [List.tail_cons]
          cases hx : pieces (a ++ '/' :: '/' :: b) with
          | nil => exact absurd hx (pieces_ne _)
          | cons y ys => rw [hx] at this; exact List.mem_cons_of_mem _ this
        · cases hx : pieces (a ++ '/' :: '/' :: b) with
          | nil => exact absurd hx (pieces_ne _)
          | cons y ys => rw [hx] at this; exact this
    have h3 := h2 a b
    rw [show a ++ '/' :: '/' :: b = a ++ c!"//" ++ b by rw [List.append_assoc]; rfl, ← he, h1, List.tail_cons] at h3
    exact (hp [] h3).1.1 rfl
  · rw [text_head hne]; decide
  · rcases List.eq_nil_or_concat p with rfl | ⟨q, c, rfl⟩
    · exact absurd rfl hne
    · rw [List.concat_eq_append] at *
      obtain ⟨a, ha, hl⟩ := text_last (p := q) (hp c (by simp)).1
      rw [hl]
      intro e
      cases e
      exact (hp c (by simp)).1.2.2.2 ha

/-- C185 (partial). For the text of a plain path without symbolic links: if MakeDirectory returns true, the path is a directory (and so are all directories above it);
it adds nothing but directories on the way to the path; it returns true whenever nothing but directories stands on the way and `mkdir` is permitted.
The first part needs that a regular file at the path can be read. -/
theorem C185_make_partial (t : Tree) (p : Path) (hne : p ≠ []) (hp : Plain p) (hl : NoLinks t p) (hk : p.length + 1 < h.steps) :
    ((∀ b m, get t p = some (.file b m) → h.may .read t p = true) → (makeDirectory h t (text p)).1 = true →
      ∃ m es, get (makeDirectory h t (text p)).2 p = some (.dir m es)) ∧
    (∀ q, see t q = none → see (makeDirectory h t (text p)).2 q = none ∨ (q <+: p ∧ see (makeDirectory h t (text p)).2 q = some (.dir h.dirMode))) ∧
    ((∃ m es, get t [] = some (.dir m es)) → Free t p → (∀ t q, h.may .mkdir t q = true) → (makeDirectory h t (text p)).1 = true) := by
  have hn : ∀ c ∈ p, Name c := fun c hc => (hp c hc).1
  obtain ⟨q, c, rfl⟩ : ∃ q c, p = q ++ [c] := by
    rcases List.eq_nil_or_concat p with rfl | ⟨q, c, rfl⟩
    · exact absurd rfl hne
    · exact ⟨q, c, by rw [List.concat_eq_append]⟩
  have hnq : ∀ d ∈ q, Name d := fun d hd => hn d (by simp [hd])
  have hnc : Name c := hn c (by simp)
  have hbc : '\\' ∉ c := (hp c (by simp)).2
  have hcv := convert_text (h := h) hne hp
  have ha : ∀ n, get t (q ++ [c]) = some n → fileIsDirectory h t (text (q ++ [c])) = n.isDir ∧ fileExists h t (text (q ++ [c])) = h.may .read t (q ++ [c]) := by
    intro n hg
    have hlo := locate_there (h := h) hne hn hl hg hk
    unfold fileIsDirectory fileExists stat access
    rw [stripOne_text hnc hbc, hlo]
    simp [hg, text_ne hne]
  have hnone : get t (q ++ [c]) = none → fileExists h t (text (q ++ [c])) = false := by
    intro hg
    unfold fileExists access
    cases hlo : locate h t (text (q ++ [c])) with
    | error e => simp
    | ok r =>
      have := locate_plain hne hn hl hlo
      subst this
      simp [hg]
  obtain ⟨f1, f2⟩ := fold_plain (h := h) (q ++ [c]) [] t hn hl
  rw [List.nil_append] at f1 f2
  rw [show text ([] : Path) = [] from rfl] at f1 f2
  generalize ht1 : (cuts [] (text (q ++ [c]))).foldl (tryMkdir h) t = t1 at f1 f2
  have hl1 : NoLinks t1 (q ++ [c]) := noLinks_grows f1 hl
  have hl1q : NoLinks t1 q := noLinks_prefix hl1 (List.prefix_append _ _)
  obtain ⟨m1, m2⟩ := mkdir_plain (h := h) hnq hnc hl1q
  have hdir : ∀ n, get t (q ++ [c]) = some n → n.isDir = true → ∃ m es, get t (q ++ [c]) = some (.dir m es) := by
    intro n hg hd
    cases n with
    | dir m es => exact ⟨m, es, hg⟩
    | file b m => cases hd
    | link s => cases hd
  by_cases hfe : fileExists h t (text (q ++ [c])) = true
  · have hmk : makeDirectory h t (text (q ++ [c])) = (fileIsDirectory h t (text (q ++ [c])), t) := by
      unfold makeDirectory; rw [if_pos hfe]
    rw [hmk]
    cases hg : get t (q ++ [c]) with
    | none => rw [hnone hg] at hfe; cases hfe
    | some n =>
      obtain ⟨a1, a2⟩ := ha n hg
      rw [a1]
      simp only
      refine ⟨fun _ hd => ?_, fun x hx => .inl hx, fun _ hf _ => ?_⟩
      · rw [← hg]; exact hdir n hg hd
      · rcases hf _ (List.prefix_refl _) with e | ⟨m, es, e⟩
        · rw [e] at hg; cases hg
        · rw [e] at hg; cases hg; rfl
  · have hmk : makeDirectory h t (text (q ++ [c])) = match mkdir h t1 (text (q ++ [c])) with
        | .ok t' => (true, t')
        | .error .exist => (true, t1)
        | .error _ => (false, t1) := by
      unfold makeDirectory
      rw [if_neg hfe, if_neg (text_ne hne), hcv]
      simp only [ht1]
    rw [hmk]
    cases hm : mkdir h t1 (text (q ++ [c])) with
    | ok t' =>
      obtain ⟨g1, g2⟩ := m1 t' hm
      refine ⟨fun _ _ => g2, ?_, fun _ _ _ => rfl⟩
      have := grows_trans h f1 (grows_mono h (S' := fun x => x <+: q ++ [c]) (by rintro x rfl; exact List.prefix_refl _) g1)
      exact fun x hx => (this x).2 hx
    | error e =>
      have hlast : ∀ x, see t x = none → see t1 x = none ∨ (x <+: q ++ [c] ∧ see t1 x = some (.dir h.dirMode)) := fun x hx => (f1 x).2 hx
      have hgo : (∃ m es, get t [] = some (.dir m es)) → Free t (q ++ [c]) → (∀ t q, h.may .mkdir t q = true) → e = .exist := by
        intro hr hf hmay
        have hd := f2 (by simpa using hr) hf hk hmay
        rw [List.dropLast_concat] at hd
        obtain ⟨m, es, hd⟩ := hd
        have hpl := place_there (h := h) hnq hnc hl1q hd (by simp at hk; omega)
        unfold mkdir at hm
        rw [hpl] at hm
        simp only [hmay, if_true] at hm
        split at hm
        · cases hm; rfl
        · cases hm
      cases e with
      | exist =>
        refine ⟨fun hread _ => ?_, hlast, fun _ _ _ => rfl⟩
        have hs := m2 hm
        show ∃ m es, get t1 (q ++ [c]) = some (.dir m es)
        by_cases hx : see t (q ++ [c]) = none
        · rcases (f1 _).2 hx with e | ⟨_, e⟩
          · rw [see_none.2 e] at hs; cases hs
          · obtain ⟨es, he⟩ := see_dir.2 e
            exact ⟨_, es, he⟩
        · cases hg : get t (q ++ [c]) with
          | none => exact absurd (see_none.1 hg) hx
          | some n =>
            cases n with
            | dir m es => exact dir_grows f1 ⟨m, es, hg⟩
            | link s => exact absurd hg (hl _ (List.prefix_refl _) s)
            | file b m =>
              obtain ⟨_, a2⟩ := ha _ hg
              rw [hread b m hg] at a2
              exact absurd a2 hfe
      | noent =>
        refine ⟨fun _ hf => (by cases hf), hlast, fun a b d => ?_⟩
        have := hgo a b d
        cases this
      | other =>
        refine ⟨fun _ hf => (by cases hf), hlast, fun a b d => ?_⟩
        have := hgo a b d
        cases this

/-! ### Cases -/

def sample : Tree := some (.dir 0o755 [(c!"d", .dir 0o755 [(c!"f", .file [1, 2] 0o644)]), (c!"g", .file [1, 2] 0o600)])

example : filesDiffer {} sample (c!"/d/f") (c!"/g") = false := by decide +kernel
example : filesDiffer {} sample (c!"/d/f") (c!"/d") = true := by decide +kernel

/-- The conditions of `C185_make_partial` can be met, and directories are made. -/
example : Plain [c!"d", c!"a", c!"b"] ∧ NoLinks sample [c!"d", c!"a", c!"b"] := by
  refine ⟨by unfold Plain Name; decide +kernel, ?_⟩
  intro q hq s
  rw [ne_eq, see_link]
  have : ∀ q ∈ [[], [c!"d"], [c!"d", c!"a"], [c!"d", c!"a", c!"b"]], (match see sample q with | some (.link _) => false | _ => true) = true := by decide +kernel
  have hm : q ∈ [[], [c!"d"], [c!"d", c!"a"], [c!"d", c!"a", c!"b"]] := by
    have := List.mem_inits _ _ |>.2 hq
    simpa using this
  intro hs
  have := this q hm
  rw [hs] at this
  cases this
example : (makeDirectory {} sample (c!"/d/a/b")).1 = true ∧ see (makeDirectory {} sample (c!"/d/a/b")).2 [c!"d", c!"a", c!"b"] = some (.dir 0o755) := by decide +kernel
example : (makeDirectory {} sample (c!"/g/b")).1 = false := by decide +kernel

/-- C185, the full statement "if MakeDirectory returns true, the path is a directory", is false: for a regular file and a trailing slash, and for a regular file that
can not be read. -/
theorem C185_refuted :
    ((makeDirectory {} sample (c!"/g/")).1 = true ∧ (makeDirectory {} sample (c!"/g/")).2 = sample ∧ see sample [c!"g"] = some (.file [1, 2] 0o600)) ∧
    ((makeDirectory { may := fun c _ _ => match c with | .read => false | _ => true } sample (c!"/g")).1 = true ∧
      see (makeDirectory { may := fun c _ _ => match c with | .read => false | _ => true } sample (c!"/g")).2 [c!"g"] = some (.file [1, 2] 0o600)) := by
  refine ⟨⟨by decide +kernel, by rfl, by decide +kernel⟩, by decide +kernel, by decide +kernel⟩

end Vital.Files
