/-
  Concrete cases for the theorems on regular expressions.
-/
import Verif.Regex.Link

namespace Vital.Regex
open Vital.Expand Vital.Parser

/-- `a(b|c)*d` is a regular expression: the hypotheses of C118 to C121 are met. -/
example : ∃ e p, IsRegex (bytes "a(b|cd)*e") e ∧ compile (bytes "a(b|cd)*e") = .ok p ∧ 0 ∉ bytes "a(b|cd)*e" := by
  obtain ⟨p, hp⟩ : ∃ p, compile (bytes "a(b|cd)*e") = .ok p := by
    cases h : compile (bytes "a(b|cd)*e") with
    | ok p => exact ⟨p, rfl⟩
    | error x =>
      have : (match compile (bytes "a(b|cd)*e") with | .ok _ => true | .error _ => false) = true := by decide +kernel
      rw [h] at this; cases this
  obtain ⟨⟨e, he⟩, -⟩ := (C118_compile_accepts (bytes "a(b|cd)*e") (by decide +kernel)).2.1 p hp
  exact ⟨e, p, he, hp, by decide +kernel⟩

/-- Matches with groups: the last repetition is the one recorded; a group that takes no part is unset. -/
example : tryIt "a(b|cd)*e" "xxabcdbezz" = some (2, 8, [some (6, 7), none, none]) := by decide +kernel
example : tryIt "(a)|(b)" "xb" = some (1, 2, [none, some (1, 2), none]) := by decide +kernel
/-- Leftmost, then greedy; the preferred way need not be the longest. -/
example : tryIt "a|ab" "xab" = some (1, 2, [none, none, none]) := by decide +kernel
example : tryIt "a+" "baaac" = some (1, 4, [none, none, none]) := by decide +kernel
example : tryIt "[^a-c]$" "abcd" = some (3, 4, [none, none, none]) := by decide +kernel
example : tryIt "^b" "ab" = none := by decide +kernel

/-- Not regular expressions. -/
example : ∀ s ∈ ["a(b", "a)b", "*a", "(a*)*", "a**", "[ab", "[b-a]", "a\\", "^*", "(((((((((())))))))))"], compile (bytes s) = .error .refused := by
  intro s hs
  have : ∀ s ∈ ["a(b", "a)b", "*a", "(a*)*", "a**", "[ab", "[b-a]", "a\\", "^*", "(((((((((())))))))))"],
      (match compile (bytes s) with | .error .refused => true | _ => false) = true := by decide +kernel
  have := this s hs
  split at this
  · assumption
  · cases this

/-- The scanners on real input. -/
example : findToken "x $ENV{HOME}/a".toList = some ("x ".toList, "ENV".toList, "HOME".toList, "/a".toList) := by decide +kernel
example : tryIt tokenPattern "x $ENV{HOME}/a" = some (2, 12, [some (3, 6), some (7, 11), none]) := by decide +kernel
example : scanWord "a:b:c:: = 3".toList = some ("a:b:c".toList, ":: = 3".toList) := by decide +kernel
example : tryIt wordPattern "a:b:c:: = 3" = some (0, 5, [none, none, none]) := by decide +kernel
example : tryIt flagPattern "[RO] = 3" = some (0, 4, [none, none, none]) := by decide +kernel

end Vital.Regex
