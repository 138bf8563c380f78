import Verif.Basic.Decimal
import Verif.CApi.Utils
/-
  vital/exceptions/*.cxx and vital/config/config_block_exception.cxx: what the exceptions say; properties C254 to C256.
-/
namespace Vital.Exc

open Vital.CApi (cstr nul)

/-- The exceptions of the library, with the arguments of their constructors. -/
inductive Exn where
  | configBase
  | badCast (reason : Str)
  | badCastKey (key value type reason : Str)
  | noSuchValue (key : Str)
  | setReadOnly (key value new : Str)
  | unsetReadOnly (key value : Str)
  | configIo (path reason : Str)
  | badConfigurationCast (reason : Str)
  | badConfigurationCastKey (key value type reason : Str)
  | configNotFound (path reason : Str)
  | configNotRead (path reason : Str)
  | configNotParsed (path reason : Str)
  | configWrite (path reason : Str)
  | base
  | invalidValue (reason : Str)
  | io
  | pathNotExists (path : Str)
  | pathNotFile (path : Str)
  | pathNotDirectory (path : Str)
  | invalidFile (path reason : Str)
  | invalidData (reason : Str)
  | fileNotFound (path reason : Str)
  | fileNotRead (path reason : Str)
  | fileWrite (path reason : Str)
  | algorithm (type impl reason : Str)
  | algorithmConfiguration (type impl reason : Str)
  | invalidName (type impl : Str)
  | math
  | nonInvertible
  | pointAtInfinity
  | invalidOperation (reason : Str)
  | image
  | imageSize (message : Str) (correctW correctH givenW givenH : Nat)
  deriving DecidableEq

-- models: vital/config/config_block_exception.cxx:44-307, vital/exceptions/base.cxx:41-68, vital/exceptions/io.cxx:44-178,
-- vital/exceptions/algorithm.cxx:42-89, vital/exceptions/math.cxx:42-82, vital/exceptions/image.cxx:44-71: m_what after the constructor
-- (the constructors of the base classes run first and set m_what too; the last assignment is what is left); a size_t is written in decimal
def text : Exn → Str
  | .configBase => []
  | .badCast r => r
  | .badCastKey k v t r => (c!"Failed to cast key '") ++ k ++ (c!"' with value '") ++ v ++ (c!"' as a '") ++ t ++ (c!"': ") ++ r ++ (c!".")
  | .noSuchValue k => (c!"There is no configuration value for the key '") ++ k ++ (c!"'.")
  | .setReadOnly k v n => (c!"The key '") ++ k ++ (c!"' was marked as read-only with the value '") ++ v ++ (c!"' was attempted to be set to '") ++ n ++ (c!"'.")
  | .unsetReadOnly k v => (c!"The key '") ++ k ++ (c!"' was marked as read-only with the value '") ++ v ++ (c!"' was attempted to be unset.")
  | .configIo _ _ => []
  | .badConfigurationCast r => r
  | .badConfigurationCastKey k v t r =>
      (c!"Failed to cast key '") ++ k ++ (c!"' with value '") ++ v ++ (c!"' as a '") ++ cstr t ++ (c!"': ") ++ cstr r ++ (c!".")
  | .configNotFound p r => (c!"Could not find file '") ++ p ++ (c!"': ") ++ r
  | .configNotRead p r => (c!"Failed to read from file '") ++ p ++ (c!"': ") ++ r
  | .configNotParsed p r => (c!"Failed to parse file '") ++ p ++ (c!"': ") ++ r
  | .configWrite p r => (c!"Failed to write to file '") ++ p ++ (c!"': ") ++ r
  | .base => []
  | .invalidValue r => (c!"Invalid value(s): ") ++ r
  | .io => (c!"An IO exception occurred.")
  | .pathNotExists p => (c!"Path does not exist: ") ++ p
  | .pathNotFile p => (c!"Path does not point to a file: ") ++ p
  | .pathNotDirectory p => (c!"Path does not point to a directory: ") ++ p
  | .invalidFile p r => (c!"Invalid file ") ++ p ++ (c!": ") ++ r
  | .invalidData r => (c!"Invalid data: ") ++ r
  | .fileNotFound p r => (c!"Could not find file at location '") ++ cstr p ++ (c!"': ") ++ r
  | .fileNotRead p r => (c!"Failed to read from file '") ++ cstr p ++ (c!"': ") ++ r
  | .fileWrite p r => (c!"Failed to write to file '") ++ cstr p ++ (c!"': ") ++ r
  | .algorithm t i r => (c!"[algo::") ++ t ++ (c!"::") ++ i ++ (c!"]: ") ++ r
  | .algorithmConfiguration t i r => (c!"Failed to configure algorithm \"") ++ t ++ (c!"::") ++ i ++ (c!"\" due to: ") ++ r
  | .invalidName t i => (c!"Invalid algorithm impl name \"") ++ i ++ (c!"\"for type \"") ++ t ++ (c!"\".")
  | .math => (c!"A math exception occurred.")
  | .nonInvertible => (c!"A matrix was found to be non-invertible")
  | .pointAtInfinity => (c!"A point mapped to infinity")
  | .invalidOperation r => (c!"Invalid operation: ") ++ r
  | .image => (c!"An image exception")
  | .imageSize m cw ch gw gh => m ++ (c!" (given: [") ++ natStr gw ++ (c!", ") ++ natStr gh ++ (c!"], should be: [") ++ natStr cw ++ (c!", ") ++ natStr ch ++ (c!"])")

-- models: vital/config/config_block_exception.cxx:57-62, vital/exceptions/base.cxx:54-59 (what): m_what.c_str(), read as a C string
def what (e : Exn) : Str := cstr (text e)

/-! ### Specification -/

/-- The texts and numbers the thrower gave. -/
def parts : Exn → List Str
  | .badCast r | .badConfigurationCast r | .invalidValue r | .invalidData r | .invalidOperation r => [r]
  | .badCastKey k v t r | .badConfigurationCastKey k v t r => [k, v, t, r]
  | .noSuchValue k => [k]
  | .setReadOnly k v n => [k, v, n]
  | .unsetReadOnly k v => [k, v]
  | .configIo p r | .configNotFound p r | .configNotRead p r | .configNotParsed p r | .configWrite p r | .invalidFile p r
  | .fileNotFound p r | .fileNotRead p r | .fileWrite p r => [p, r]
  | .pathNotExists p | .pathNotFile p | .pathNotDirectory p => [p]
  | .algorithm t i r | .algorithmConfiguration t i r => [t, i, r]
  | .invalidName t i => [t, i]
  | .imageSize m cw ch gw gh => [m, natStr cw, natStr ch, natStr gw, natStr gh]
  | .configBase | .base | .io | .math | .nonInvertible | .pointAtInfinity | .image => []

/-- No NUL character in any of the texts. -/
def Clean (e : Exn) : Prop := ∀ a ∈ parts e, nul ∉ a

/-- The text `a` occurs in `s`. -/
def OccursIn (a s : Str) : Prop := ∃ pre post, s = pre ++ a ++ post

/-! ### Proofs -/

theorem cstr_noNul (s : Str) : nul ∉ cstr s := by
  intro h
  have := takeWhile_mem (p := fun c => c != nul) (s := s) nul h
  simp at this

theorem cstr_prefix (s : Str) : ∃ t, s = cstr s ++ t := ⟨s.dropWhile (fun c => c != nul), by unfold cstr; exact List.takeWhile_append_dropWhile.symm⟩

theorem natStr_noNul (n : Nat) : nul ∉ natStr n := by
  intro h
  have := natStr_digits n nul h
  revert this
  decide

theorem occ_of {a s : Str} (pre post : Str) (h : s = pre ++ (a ++ post)) : OccursIn a s := ⟨pre, post, by rw [h, List.append_assoc]⟩

theorem text_noNul (e : Exn) (h : Clean e) : nul ∉ text e := by
  have hc : ∀ s : Str, nul ∉ s → cstr s = s := fun s hs => CApi.cstr_self hs
  have hl : ∀ s : Str, (s.all (fun c => c != nul)) = true → nul ∉ s := by
    intro s hs hn
    have := List.all_eq_true.mp hs nul hn
    simp at this
  cases e <;> simp only [Clean, parts, List.mem_cons, List.mem_nil_iff, or_false, forall_eq_or_imp, forall_eq] at h <;>
    simp only [text, List.mem_append, not_or] <;>
    (try (simp only [cstr_noNul, not_false_eq_true, and_true, true_and])) <;>
    (try (refine hl _ ?_; decide)) <;>
    (try (repeat' apply And.intro)) <;>
    first
      | exact h
      | exact h.1
      | exact h.2
      | exact h.2.1
      | exact h.2.2
      | exact h.2.2.1
      | exact h.2.2.2
      | exact h.2.2.2.1
      | exact h.2.2.2.2
      | (exact natStr_noNul _)
      | (refine hl _ ?_; decide)
      | trivial

theorem what_clean {e : Exn} (h : Clean e) : what e = text e := CApi.cstr_self (text_noNul e h)


/-- The classes whose constructor leaves the message empty although it was given texts. -/
def Silent : Exn → Prop
  | .configIo _ _ => True
  | _ => False

theorem occ_self (a : Str) : OccursIn a a := ⟨[], [], by simp⟩
theorem occ_end (a pre : Str) : OccursIn a (pre ++ a) := ⟨pre, [], by simp⟩
theorem occ_right {a pre : Str} (post : Str) (h : OccursIn a pre) : OccursIn a (pre ++ post) := by
  obtain ⟨x, y, rfl⟩ := h
  exact ⟨x, y ++ post, by simp⟩

theorem parts_in_text (e : Exn) (h : Clean e) (hs : ¬ Silent e) : ∀ a ∈ parts e, OccursIn a (text e) := by
  intro a ha
  have hcl : ∀ b ∈ parts e, cstr b = b := fun b hb => CApi.cstr_self (h b hb)
  cases e <;> simp only [parts, List.mem_cons, List.not_mem_nil, or_false, forall_eq_or_imp, forall_eq] at ha hcl <;>
    (try exact absurd trivial hs) <;>
    (try (exact absurd ha (fun h => h))) <;>
    simp only [text] <;>
    (try simp only [hcl]) <;>
    (try rcases ha with rfl | rfl | rfl | rfl | rfl) <;>
    (try rcases ha with rfl | rfl | rfl | rfl) <;>
    (try rcases ha with rfl | rfl | rfl) <;>
    (try rcases ha with rfl | rfl) <;>
    (try subst ha) <;>
    (repeat first | exact occ_self _ | exact occ_end _ _ | apply occ_right)

/-- **C254** (the message holds what was given): every text and number given to the constructor occurs in the message, when there is no NUL in
the texts. The one class left out is `config_block_io_exception` thrown as itself. -/
theorem C254_parts (e : Exn) (h : Clean e) (hs : ¬ Silent e) : ∀ a ∈ parts e, OccursIn a (what e) := by
  rw [what_clean h]
  exact parts_in_text e h hs

/-- **C254** (limits): `config_block_io_exception` says nothing, whatever file and reason it was given. -/
theorem C254_io_silent (p r : Str) : what (.configIo p r) = [] := rfl

/-- **C254** (limits): a NUL in a key hides everything after it: the message for the key `a\0b` is the message cut after `a`, and the text `b`
is not in it. -/
theorem C254_nul_cuts (a b : Str) (ha : nul ∉ a) :
    what (.noSuchValue (a ++ nul :: b)) = (c!"There is no configuration value for the key '") ++ a := by
  have hp : ∀ (x y : Str), nul ∉ x → cstr (x ++ nul :: y) = x := by
    intro x y hx
    unfold cstr
    induction x with
    | nil => simp
    | cons c x ih =>
      simp only [List.mem_cons, not_or] at hx
      have hc : (c != nul) = true := by simpa using fun e => hx.1 e.symm
      simp only [List.cons_append, List.takeWhile_cons, hc, if_true]
      rw [ih hx.2]
  have : text (.noSuchValue (a ++ nul :: b)) = ((c!"There is no configuration value for the key '") ++ a) ++ nul :: (b ++ (c!"'.")) := by
    simp only [text, List.append_assoc, List.cons_append]
  unfold what
  rw [this]
  refine hp _ _ ?_
  simp only [List.mem_append, not_or]
  exact ⟨by decide, ha⟩

/-- **C254** (what a caller reads): `what()` gives a text without NUL that begins the text the constructor made. -/
theorem C254_c_string (e : Exn) : nul ∉ what e ∧ ∃ t, text e = what e ++ t := ⟨cstr_noNul _, cstr_prefix _⟩

example : what (.setReadOnly (c!"a:b") (c!"1") (c!"2")) =
    (c!"The key 'a:b' was marked as read-only with the value '1' was attempted to be set to '2'.") := by decide +kernel
example : what (.imageSize (c!"Bad size") 640 480 64 48) = (c!"Bad size (given: [64, 48], should be: [640, 480])") := by decide +kernel
example : Clean (.setReadOnly (c!"a:b") (c!"1") (c!"2")) ∧ ¬ Silent (.setReadOnly (c!"a:b") (c!"1") (c!"2")) :=
  ⟨by unfold Clean; decide, fun h => h⟩

/-! ### C255: reading a message back -/

/-- Two exceptions of the same class. -/
def SameClass (e e' : Exn) : Prop := e.ctorIdx = e'.ctorIdx

/-- The texts that stand before a closing mark do not hold that mark themselves. -/
def Plain : Exn → Prop
  | .badCastKey k v t _ | .badConfigurationCastKey k v t _ => '\'' ∉ k ∧ '\'' ∉ v ∧ '\'' ∉ t
  | .setReadOnly k v _ => '\'' ∉ k ∧ '\'' ∉ v
  | .unsetReadOnly k _ => '\'' ∉ k
  | .configNotFound p _ | .configNotRead p _ | .configNotParsed p _ | .configWrite p _
  | .fileNotFound p _ | .fileNotRead p _ | .fileWrite p _ => '\'' ∉ p
  | .invalidFile p _ => ':' ∉ p
  | .algorithm t i _ => ':' ∉ t ∧ ':' ∉ i
  | .algorithmConfiguration t i _ => ':' ∉ t ∧ '"' ∉ i
  | .invalidName _ i => '"' ∉ i
  | _ => True

theorem cut_at {q : Char} {a b x y : Str} (ha : q ∉ a) (hb : q ∉ b) (h : a ++ q :: x = b ++ q :: y) : a = b ∧ x = y := by
  induction a generalizing b with
  | nil =>
    cases b with
    | nil => exact ⟨rfl, (List.cons.inj h).2⟩
    | cons c b => exact absurd (by rw [(List.cons.inj h).1]; exact List.mem_cons_self) hb
  | cons d a ih =>
    cases b with
    | nil => exact absurd (by rw [(List.cons.inj h).1]; exact List.mem_cons_self) ha
    | cons c b =>
      obtain ⟨h1, h2⟩ := List.cons.inj h
      obtain ⟨h3, h4⟩ := ih (fun hm => ha (List.mem_cons_of_mem _ hm)) (fun hm => hb (List.mem_cons_of_mem _ hm)) h2
      exact ⟨by rw [h1, h3], h4⟩

/-- From the end: a number after something that is no digit. -/
theorem cut_num {c : Char} {a b : Str} {m n : Nat} (hc : isDigit c = false) (h : a ++ c :: natStr m = b ++ c :: natStr n) : a = b ∧ m = n := by
  have hr := congrArg List.reverse h
  simp only [List.reverse_append, List.reverse_cons, List.append_assoc, List.singleton_append] at hr
  have hd : ∀ k, c ∉ (natStr k).reverse := by
    intro k hk
    rw [natStr_digits k c (List.mem_reverse.mp hk)] at hc
    exact absurd hc (by decide)
  obtain ⟨h1, h2⟩ := cut_at (hd m) (hd n) (by simpa using hr)
  exact ⟨List.reverse_inj.mp h2, natStr_inj (List.reverse_inj.mp h1)⟩

/-- **C255** (reading a message back): when the texts before a closing mark do not hold that mark, the message of an exception tells all that it
was given: two exceptions of one class with the same message were given the same texts and numbers. -/
theorem C255_reads_back (e e' : Exn) (hk : SameClass e e') (hc : Clean e) (hc' : Clean e') (hp : Plain e) (hp' : Plain e') (hs : ¬ Silent e)
    (h : what e = what e') : e = e' := by
  rw [what_clean hc, what_clean hc'] at h
  have hcl : ∀ b ∈ parts e, cstr b = b := fun b hb => CApi.cstr_self (hc b hb)
  have hcl' : ∀ b ∈ parts e', cstr b = b := fun b hb => CApi.cstr_self (hc' b hb)
  cases e with
  | configBase | base | io | math | nonInvertible | pointAtInfinity | image => cases e' <;> first | rfl | (simp [SameClass, Exn.ctorIdx] at hk; done)
  | configIo p r => exact absurd trivial hs
  | badCast r | badConfigurationCast r =>
    cases e' <;> first | (exfalso; simp [SameClass, Exn.ctorIdx] at hk; done) | skip
    simp only [text] at h
    rw [h]
  | invalidValue r | invalidData r | invalidOperation r | pathNotExists r | pathNotFile r | pathNotDirectory r =>
    cases e' <;> first | (exfalso; simp [SameClass, Exn.ctorIdx] at hk; done) | skip
    simp only [text] at h
    rw [List.append_cancel_left h]
  | noSuchValue k =>
    cases e' <;> first | (exfalso; simp [SameClass, Exn.ctorIdx] at hk; done) | skip
    simp only [text] at h
    rw [List.append_cancel_left (List.append_cancel_right h)]
  | badCastKey k v t r =>
    cases e' <;> first | (exfalso; simp [SameClass, Exn.ctorIdx] at hk; done) | skip
    simp only [text, List.append_assoc] at h
    obtain ⟨rfl, h1⟩ := cut_at hp.1 hp'.1 (List.append_cancel_left h)
    obtain ⟨rfl, h2⟩ := cut_at hp.2.1 hp'.2.1 (List.append_cancel_left (as := (c!" with value '")) h1)
    obtain ⟨rfl, h3⟩ := cut_at hp.2.2 hp'.2.2 (List.append_cancel_left (as := (c!" as a '")) h2)
    have h4 := List.append_cancel_right (List.append_cancel_left (as := (c!": ")) h3)
    rw [h4]
  | badConfigurationCastKey k v t r =>
    cases e' <;> first | (exfalso; simp [SameClass, Exn.ctorIdx] at hk; done) | skip
    simp only [parts, List.mem_cons, List.not_mem_nil, or_false, forall_eq_or_imp, forall_eq] at hcl hcl'
    simp only [text, List.append_assoc, hcl, hcl'] at h
    obtain ⟨rfl, h1⟩ := cut_at hp.1 hp'.1 (List.append_cancel_left h)
    obtain ⟨rfl, h2⟩ := cut_at hp.2.1 hp'.2.1 (List.append_cancel_left (as := (c!" with value '")) h1)
    obtain ⟨rfl, h3⟩ := cut_at hp.2.2 hp'.2.2 (List.append_cancel_left (as := (c!" as a '")) h2)
    have h4 := List.append_cancel_right (List.append_cancel_left (as := (c!": ")) h3)
    rw [h4]
  | setReadOnly k v n =>
    cases e' <;> first | (exfalso; simp [SameClass, Exn.ctorIdx] at hk; done) | skip
    simp only [text, List.append_assoc] at h
    obtain ⟨rfl, h1⟩ := cut_at hp.1 hp'.1 (List.append_cancel_left h)
    obtain ⟨rfl, h2⟩ := cut_at hp.2 hp'.2 (List.append_cancel_left (as := (c!" was marked as read-only with the value '")) h1)
    have h4 := List.append_cancel_right (List.append_cancel_left (as := (c!" was attempted to be set to '")) h2)
    rw [h4]
  | unsetReadOnly k v =>
    cases e' <;> first | (exfalso; simp [SameClass, Exn.ctorIdx] at hk; done) | skip
    simp only [text, List.append_assoc] at h
    obtain ⟨rfl, h1⟩ := cut_at hp hp' (List.append_cancel_left h)
    have h4 := List.append_cancel_right (List.append_cancel_left (as := (c!" was marked as read-only with the value '")) h1)
    rw [h4]
  | configNotFound p r | configNotRead p r | configNotParsed p r | configWrite p r =>
    cases e' <;> first | (exfalso; simp [SameClass, Exn.ctorIdx] at hk; done) | skip
    simp only [text, List.append_assoc] at h
    obtain ⟨rfl, h1⟩ := cut_at hp hp' (List.append_cancel_left h)
    have h4 := List.append_cancel_left (as := (c!": ")) h1
    rw [h4]
  | fileNotFound p r | fileNotRead p r | fileWrite p r =>
    cases e' <;> first | (exfalso; simp [SameClass, Exn.ctorIdx] at hk; done) | skip
    simp only [parts, List.mem_cons, List.not_mem_nil, or_false, forall_eq_or_imp, forall_eq] at hcl hcl'
    simp only [text, List.append_assoc, hcl, hcl'] at h
    obtain ⟨rfl, h1⟩ := cut_at hp hp' (List.append_cancel_left h)
    have h4 := List.append_cancel_left (as := (c!": ")) h1
    rw [h4]
  | invalidFile p r =>
    cases e' <;> first | (exfalso; simp [SameClass, Exn.ctorIdx] at hk; done) | skip
    simp only [text, List.append_assoc] at h
    obtain ⟨rfl, h1⟩ := cut_at hp hp' (List.append_cancel_left h)
    have h4 := List.append_cancel_left (as := (c!" ")) h1
    rw [h4]
  | algorithm t i r =>
    cases e' <;> first | (exfalso; simp [SameClass, Exn.ctorIdx] at hk; done) | skip
    rename_i t' i' r'
    simp only [text, List.append_assoc] at h
    obtain ⟨rfl, h1⟩ := cut_at hp.1 hp'.1 (List.append_cancel_left h)
    have h2 := List.append_cancel_left (as := (c!":")) h1
    have hi : ':' ∉ i ++ (c!"]") := by simp [hp.2]
    have hi' : ':' ∉ i' ++ (c!"]") := by simp [hp'.2]
    obtain ⟨h3, h4⟩ := cut_at (x := (c!" ") ++ r) (y := (c!" ") ++ r') hi hi' (by simpa using h2)
    rw [List.append_cancel_right h3, List.append_cancel_left h4]
  | algorithmConfiguration t i r =>
    cases e' <;> first | (exfalso; simp [SameClass, Exn.ctorIdx] at hk; done) | skip
    simp only [text, List.append_assoc] at h
    obtain ⟨rfl, h1⟩ := cut_at hp.1 hp'.1 (List.append_cancel_left h)
    obtain ⟨rfl, h2⟩ := cut_at hp.2 hp'.2 (List.append_cancel_left (as := (c!":")) h1)
    have h4 := List.append_cancel_left (as := (c!" due to: ")) h2
    rw [h4]
  | invalidName t i =>
    cases e' <;> first | (exfalso; simp [SameClass, Exn.ctorIdx] at hk; done) | skip
    simp only [text, List.append_assoc] at h
    obtain ⟨rfl, h1⟩ := cut_at hp hp' (List.append_cancel_left h)
    have h4 := List.append_cancel_right (List.append_cancel_left (as := (c!"for type \"")) h1)
    rw [h4]
  | imageSize m cw ch gw gh =>
    cases e' <;> first | (exfalso; simp [SameClass, Exn.ctorIdx] at hk; done) | skip
    rename_i m' cw' ch' gw' gh'
    simp only [text] at h
    have h0 := List.append_cancel_right h
    obtain ⟨h1, e1⟩ := cut_num (c := ' ') (a := m ++ (c!" (given: [") ++ natStr gw ++ (c!", ") ++ natStr gh ++ (c!"], should be: [") ++ natStr cw ++ (c!","))
      (b := m' ++ (c!" (given: [") ++ natStr gw' ++ (c!", ") ++ natStr gh' ++ (c!"], should be: [") ++ natStr cw' ++ (c!",")) (by decide) (by simpa using h0)
    have h2 := List.append_cancel_right h1
    obtain ⟨h3, e2⟩ := cut_num (c := '[') (a := m ++ (c!" (given: [") ++ natStr gw ++ (c!", ") ++ natStr gh ++ (c!"], should be: "))
      (b := m' ++ (c!" (given: [") ++ natStr gw' ++ (c!", ") ++ natStr gh' ++ (c!"], should be: ")) (by decide) (by simpa using h2)
    have h4 := List.append_cancel_right h3
    obtain ⟨h5, e3⟩ := cut_num (c := ' ') (a := m ++ (c!" (given: [") ++ natStr gw ++ (c!","))
      (b := m' ++ (c!" (given: [") ++ natStr gw' ++ (c!",")) (by decide) (by simpa using h4)
    have h6 := List.append_cancel_right h5
    obtain ⟨h7, e4⟩ := cut_num (c := '[') (a := m ++ (c!" (given: ")) (b := m' ++ (c!" (given: ")) (by decide) (by simpa using h6)
    rw [e1, e2, e3, e4, List.append_cancel_right h7]

/-- **C255** (limits): without that, a message can mean two things: nothing escapes a quote in a key or a file name. -/
theorem C255_ambiguous : ∃ p r p' r' : Str, p ≠ p' ∧ Clean (.configNotFound p r) ∧ what (.configNotFound p r) = what (.configNotFound p' r') :=
  ⟨(c!"a"), (c!"b': c"), (c!"a': b"), (c!"c"), by decide, by unfold Clean; decide, by decide⟩

example : Plain (.setReadOnly (c!"a:b") (c!"1") (c!"2")) := by unfold Plain; decide

/-! ### C256: telling the classes apart by the message -/

/-- Classes whose message is empty or begins with a text of the thrower. -/
def FreeText : Exn → Prop
  | .configBase | .base | .configIo _ _ | .badCast _ | .badConfigurationCast _ | .imageSize _ _ _ _ _ => True
  | _ => False

/-- Classes that use the same phrases. -/
def Twin : Exn → Exn → Prop
  | .badCastKey _ _ _ _, .badConfigurationCastKey _ _ _ _ | .badConfigurationCastKey _ _ _ _, .badCastKey _ _ _ _
  | .configNotRead _ _, .fileNotRead _ _ | .fileNotRead _ _, .configNotRead _ _
  | .configWrite _ _, .fileWrite _ _ | .fileWrite _ _, .configWrite _ _ => True
  | _, _ => False

def clash : Str → Str → Bool
  | a :: s, b :: t => a != b || clash s t
  | _, _ => false

theorem clash_ne {s t : Str} (h : clash s t = true) (x y : Str) : s ++ x ≠ t ++ y := by
  induction s generalizing t with
  | nil => simp [clash] at h
  | cons a s ih =>
    cases t with
    | nil => simp [clash] at h
    | cons b t =>
      simp only [clash, Bool.or_eq_true] at h
      intro he
      obtain ⟨h1, h2⟩ := List.cons.inj he
      rcases h with h | h
      · simp [h1] at h
      · exact ih h h2

def leads : List Str :=
  [[], [], (c!"Failed to cast key '"), (c!"There is no configuration value for the key '"), (c!"The key '"), (c!"The key '"), [], [],
   (c!"Failed to cast key '"), (c!"Could not find file '"), (c!"Failed to read from file '"), (c!"Failed to parse file '"),
   (c!"Failed to write to file '"), [], (c!"Invalid value(s): "), (c!"An IO exception occurred."), (c!"Path does not exist: "),
   (c!"Path does not point to a file: "), (c!"Path does not point to a directory: "), (c!"Invalid file "), (c!"Invalid data: "),
   (c!"Could not find file at location '"), (c!"Failed to read from file '"), (c!"Failed to write to file '"), (c!"[algo::"),
   (c!"Failed to configure algorithm \""), (c!"Invalid algorithm impl name \""), (c!"A math exception occurred."),
   (c!"A matrix was found to be non-invertible"), (c!"A point mapped to infinity"), (c!"Invalid operation: "), (c!"An image exception"), []]

def free : List Nat := [0, 1, 6, 7, 13, 32]
def pairs : List (Nat × Nat) := [(2, 8), (8, 2), (4, 5), (5, 4), (10, 22), (22, 10), (12, 23), (23, 12)]

theorem leads_all : (List.range 33).all (fun i => (List.range 33).all (fun j => decide (i = j) || free.elem i || free.elem j || pairs.elem (i, j) ||
    clash (leads.getD i []) (leads.getD j []))) = true := by decide +kernel

theorem leads_ok (i : Nat) (hi : i < 33) (j : Nat) (hj : j < 33) (hne : i ≠ j) (fi : i ∉ free) (fj : j ∉ free) (hp : (i, j) ∉ pairs) :
    clash (leads.getD i []) (leads.getD j []) = true := by
  have h := List.all_eq_true.mp (List.all_eq_true.mp leads_all i (List.mem_range.mpr hi)) j (List.mem_range.mpr hj)
  simpa [hne, fi, fj, hp] using h

theorem text_lead (e : Exn) : ∃ x, text e = leads.getD e.ctorIdx [] ++ x := by
  cases e <;> simp only [text, List.append_assoc] <;> first | exact ⟨_, rfl⟩ | exact ⟨[], rfl⟩

theorem idx_lt (e : Exn) : e.ctorIdx < 33 := by cases e <;> simp [Exn.ctorIdx]
theorem idx_free (e : Exn) (h : ¬ FreeText e) : e.ctorIdx ∉ free := by
  cases e <;> first | (exact absurd trivial h) | (simp [Exn.ctorIdx, free])

theorem set_ne_unset (k v n k' v' : Str) : text (.setReadOnly k v n) ≠ text (.unsetReadOnly k' v') := by
  intro h
  have h2 := congrArg List.reverse h
  simp only [text, List.reverse_append] at h2
  exact clash_ne (s := (c!".'")) (t := (c!".tesnu eb ot detpmetta saw '")) (by decide) _ _ h2

/-- **C256** (the class can be told from the message): exceptions of different classes have different messages, whatever NUL-free texts they were
given; left out are the classes whose message is empty or begins with the thrower's text, and three pairs of classes with the same phrases. -/
theorem C256_classes (e e' : Exn) (hk : ¬ SameClass e e') (ht : ¬ Twin e e') (hf : ¬ FreeText e) (hf' : ¬ FreeText e')
    (hc : Clean e) (hc' : Clean e') : what e ≠ what e' := by
  rw [what_clean hc, what_clean hc']
  by_cases hp : (e.ctorIdx, e'.ctorIdx) ∈ pairs
  · cases e <;> (try (exact absurd trivial hf)) <;> (try (simp [Exn.ctorIdx, pairs] at hp; done)) <;>
      cases e' <;> first
        | (exact absurd trivial ht)
        | (simp [Exn.ctorIdx, pairs] at hp; done)
        | (exact set_ne_unset _ _ _ _ _)
        | (exact fun h => set_ne_unset _ _ _ _ _ h.symm)
  · obtain ⟨x, hx⟩ := text_lead e
    obtain ⟨y, hy⟩ := text_lead e'
    rw [hx, hy]
    exact clash_ne (leads_ok _ (idx_lt e) _ (idx_lt e') hk (idx_free e hf) (idx_free e' hf') hp) x y

/-- **C256** (limits): the pairs left out do have the same messages. -/
theorem C256_twins (k v t r p : Str) (ht : nul ∉ t) (hr : nul ∉ r) (hp : nul ∉ p) :
    what (.badCastKey k v t r) = what (.badConfigurationCastKey k v t r) ∧ what (.configNotRead p r) = what (.fileNotRead p r) ∧
    what (.configWrite p r) = what (.fileWrite p r) := by
  simp only [what, text, CApi.cstr_self ht, CApi.cstr_self hr, CApi.cstr_self hp, and_self]

/-- **C256** (limits): a cast error can carry the message of any other exception. -/
theorem C256_free_text (e : Exn) : what (.badCast (text e)) = what e ∧ what (.badConfigurationCast (text e)) = what e := ⟨rfl, rfl⟩

example : ¬ SameClass (.pathNotFile (c!"x")) (.pathNotDirectory (c!"x")) ∧ ¬ Twin (.pathNotFile (c!"x")) (.pathNotDirectory (c!"x")) ∧
    ¬ FreeText (.pathNotFile (c!"x")) ∧ Clean (.pathNotFile (c!"x")) :=
  ⟨by unfold SameClass; decide, fun h => h, fun h => h, by unfold Clean; decide⟩

end Vital.Exc
