import Verif.CApi.AlgoHandles
import Verif.Algo.Nested
/-
  Properties C129 (algorithm handles) and C130 (check_impl_configuration) about Verif.CApi.AlgoHandles.
-/
namespace Vital.CApi.Alg
open Vital Vital.Config Vital.CApi Vital.Algo

variable {δ : Type}

/-- The two outcomes agree: both undefined, or related states and the same answer. -/
def Agree (L : Lib δ) (c : Call δ) : Option (St δ × Res) → Option (Prog δ × Res) → Prop
  | none, none => True
  | some (s, r), some (t, r') => Rel L s t ∧ Same c r r'
  | _, _ => False

theorem same_refl (c : Call δ) (r : Res) : Same c r r := by cases c <;> simp [Same]

theorem object_named {L : Lib δ} {s : St δ} {t : Prog δ} (r : Rel L s t) (c p : Nat) :
    (p = 0 → object s c p = .ok none) ∧ (p ≠ 0 → t.named c p = none → ∃ e, object s c p = .error e) ∧
    (p ≠ 0 → ∀ n, t.named c p = some n → object s c p = .ok (some n)) := by
  refine ⟨fun h => by simp [object, h], fun h hn => ?_, fun h n hn => ?_⟩
  · exact ⟨.noEntry, by simp [object, h, (exact_get (r.typed c) h).2 hn]⟩
  · simp [object, h, (exact_get (r.typed c) h).1 n hn]

theorem get_gen {L : Lib δ} {s : St δ} {t : Prog δ} (r : Rel L s t) (p : Nat) :
    (t.live p = none → ∃ e, get s.gen p = .error e) ∧ (∀ c n, t.live p = some (c, n) → get s.gen p = .ok ⟨p, n⟩) := by
  by_cases hp : p = 0
  · subst hp
    exact ⟨fun _ => ⟨.nullPointer, rfl⟩, fun c n h => by rw [r.null] at h; cases h⟩
  · exact ⟨fun h => ⟨_, (exact_get r.gen hp).2 (by simp [h])⟩, fun c n h => (exact_get r.gen hp).1 n (by simp [h])⟩

theorem named_cls {t : Prog δ} {c p n : Nat} (h : t.named c p = some n) : t.live p = some (c, n) := by
  unfold Prog.named at h
  split at h
  · rename_i c' m hl
    split at h
    · rename_i e; subst e; cases h; exact hl
    · cases h
  · cases h

theorem block_ok {t : Prog δ} (cb : Nat) : (∃ e, get t.cfgs cb = .error e ∧ t.block cb = none) ∨
    (∃ k, get t.cfgs cb = .ok k ∧ t.block cb = some k.tag) := by
  unfold Prog.block
  cases h : get t.cfgs cb with
  | error e => exact .inl ⟨e, rfl, rfl⟩
  | ok k => exact .inr ⟨k, rfl, rfl⟩

theorem agree_alg {L : Lib δ} {s : St δ} {t : Prog δ} (r : Rel L s t) {g : Algo.St δ} (hf : Fair L t.alg g) (c : Call δ) (x : Res) :
    Agree L c (some ({ s with alg := g }, x)) (some ({ t with alg := g }, x)) := ⟨rel_alg r hf, same_refl c x⟩

theorem rel_exec {L : Lib δ} (ok : LibOk L) {s : St δ} {t : Prog δ} (r : Rel L s t) {a : Nat} {c : Call δ} (hl : Legal L t a c) :
    Agree L c (exec L s a c) (spec L t a c) := by
  have e1 := r.alg
  have e2 := r.cfgs
  obtain ⟨sa, sc, sg, st⟩ := s
  simp only at e1 e2
  subst e1 e2
  cases c with
  | create c i =>
    simp only [exec, spec, create]
    have hf := createCls_fair L t.alg c i
    rcases hx : createCls t.alg c i with ⟨g, x⟩
    rw [hx] at hf
    cases x with
    | error e => cases e <;> first | exact agree_alg r hf _ _ | exact trivial
    | ok o =>
      cases o with
      | none => exact agree_alg r hf _ _
      | some n =>
        obtain ⟨s', h1, h2⟩ := rel_hand (rel_alg r hf) hl.1 hl.2 (createCls_class r.regc hx)
        simp only [h1, answer, hand]
        exact ⟨h2, rfl⟩
  | destroy c p =>
    simp only [exec, spec, destroy]
    by_cases hp : p = 0
    · subst hp
      have : t.named c 0 = none := by simp [Prog.named, r.null]
      simp only [this, Option.isSome_none, Bool.false_eq_true, ↓reduceIte]
      refine ⟨?_, rfl⟩
      simp only [eraseBoth, erase, ↓reduceIte]
      exact r
    · obtain ⟨s', h1, h2⟩ := rel_drop r (c := c) hp hl
      rw [h1]
      refine ⟨?_, rfl⟩
      split
      · exact h2
      · rename_i hn
        have : t.live p = none := by
          cases h : t.live p with
          | none => rfl
          | some x => obtain ⟨c', n⟩ := x; have := hl c' n h; subst this; simp [Prog.named, h] at hn
        have e : put t.live p none = t.live := by
          funext q; simp only [put]; split
          · rename_i e; rw [e, this]
          · rfl
        rw [e] at h2
        exact h2
  | names c => simp only [exec, spec, names]; exact ⟨r, rfl⟩
  | getType c name p cb =>
    obtain ⟨o1, o2, o3⟩ := object_named r c p
    have main : ∀ o, object (⟨t.alg, t.cfgs, sg, st⟩ : St δ) c p = .ok o → Agree L (.getType c name p cb) (exec L (⟨t.alg, t.cfgs, sg, st⟩ : St δ) a (.getType c name p cb))
        (match t.block cb with
         | some k => answer t (getNested L t.alg (L.typeName c) name k o) (fun _ t' => (t', .void)) .void
         | none => some (t, .void)) := by
      intro o ho
      simp only [exec, getType, ho]
      rcases block_ok (t := t) cb with ⟨e, h1, h2⟩ | ⟨k, h1, h2⟩
      · simp only [h1, h2]; exact ⟨r, rfl⟩
      · simp only [h1, h2]
        have hf := getNested_fair ok t.alg (L.typeName c) name k.tag o
        rcases hx : getNested L t.alg (L.typeName c) name k.tag o with ⟨g, x⟩
        rw [hx] at hf
        cases x with
        | error e => cases e <;> first | exact agree_alg r hf _ _ | exact trivial
        | ok u => exact agree_alg r hf _ _
    by_cases hp : p = 0
    · have m := main none (o1 hp)
      simp only [spec, hp, ↓reduceIte] at m ⊢
      rcases block_ok (t := t) cb with ⟨e, h1, h2⟩ | ⟨k, h1, h2⟩ <;> simp only [h2] at m ⊢ <;> exact m
    · cases hn : t.named c p with
      | none =>
        obtain ⟨e, he⟩ := o2 hp hn
        simp only [exec, getType, he, spec, hp, ↓reduceIte, hn, Option.map_none]
        exact ⟨r, rfl⟩
      | some n =>
        have m := main _ (o3 hp n hn)
        simp only [spec, hp, ↓reduceIte, hn, Option.map_some] at m ⊢
        rcases block_ok (t := t) cb with ⟨e, h1, h2⟩ | ⟨k, h1, h2⟩ <;> simp only [h2] at m ⊢ <;> exact m
  | setType c name cb p =>
    obtain ⟨o1, o2, o3⟩ := object_named r c p
    have main : ∀ o, object (⟨t.alg, t.cfgs, sg, st⟩ : St δ) c p = .ok o → (∀ n, o = some n → t.live p = some (c, n)) → (o = none → p = 0) →
        Agree L (.setType c name cb p) (exec L (⟨t.alg, t.cfgs, sg, st⟩ : St δ) a (.setType c name cb p))
        (match t.block cb with
         | some k => (match setNestedCls L t.alg c name k o with
            | (g, q, r) => answer t (g, r)
                (fun _ t' => match q with
                  | some n => if o = some n then (t', .handle p) else hand a c n { t' with live := put t'.live p none }
                  | none => (t', .handle p)) (.handle p))
         | none => some (t, .handle p)) := by
      intro o ho hlo ho0
      simp only [exec, setType, ho]
      rcases block_ok (t := t) cb with ⟨e, h1, h2⟩ | ⟨k, h1, h2⟩
      · simp only [h1, h2]; exact ⟨r, rfl⟩
      · simp only [h1, h2]
        obtain ⟨hf, hq⟩ := setNestedCls_fair ok r.reg c name k.tag o (fun n e => r.cls p c n (hlo n e))
        rcases hx : setNestedCls L t.alg c name k.tag o with ⟨g, q, x⟩
        rw [hx] at hf hq
        cases x with
        | error e => cases e <;> first | exact agree_alg r hf _ _ | exact trivial
        | ok u =>
          rcases hq rfl with e | ⟨x, e, hne, hx1, hx2⟩
          · simp only at e
            subst e
            cases q with
            | none =>
              have := ho0 rfl
              subst this
              simp only [answer, ne_eq, not_true_eq_false, ↓reduceIte]
              exact agree_alg r hf _ _
            | some n =>
              simp only [answer, ne_eq, not_true_eq_false, ↓reduceIte]
              exact agree_alg r hf _ _
          · simp only at e hx1
            subst e
            simp only [answer, hne, ↓reduceIte]
            have hap : p ≠ a := by
              rintro rfl
              cases o with
              | none => exact hl.1 (ho0 rfl)
              | some n => have := hlo n rfl; rw [hl.2] at this; cases this
            rw [if_pos hap]
            have r1 := rel_alg r hf
            by_cases hp : p = 0
            · have e0 : put t.live p none = t.live := by
                funext z; simp only [put]; split
                · rename_i e; rw [e, hp, r.null]
                · rfl
              obtain ⟨s', h3, h4⟩ := rel_hand r1 hl.1 hl.2 ⟨x, hx1, hx2⟩
              simp only [hp, ne_eq, not_true_eq_false, ↓reduceIte, h3, hand] at e0 ⊢
              refine ⟨?_, rfl⟩
              rw [e0]
              exact h4
            · obtain ⟨n, hn⟩ : ∃ n, o = some n := by
                cases o with
                | none => exact absurd (ho0 rfl) hp
                | some n => exact ⟨n, rfl⟩
              obtain ⟨s1, h3, r2⟩ := rel_drop r1 (c := c) hp (by
                intro c' m hm
                have h5 := hlo n hn
                simp only at hm
                rw [h5] at hm
                cases hm; rfl)
              obtain ⟨s', h4, h5⟩ := rel_hand (c := c) r2 hl.1 (by simp only [put]; rw [if_neg (Ne.symm hap)]; exact hl.2) ⟨x, hx1, hx2⟩
              simp only [ne_eq, hp, not_false_eq_true, ↓reduceIte, h3, h4, hand]
              exact ⟨h5, rfl⟩
    by_cases hp : p = 0
    · have m := main none (o1 hp) (by simp) (fun _ => hp)
      simp only [spec, hp, ↓reduceIte] at m ⊢
      rcases block_ok (t := t) cb with ⟨e, h1, h2⟩ | ⟨k, h1, h2⟩ <;> simp only [h2] at m ⊢ <;> exact m
    · cases hn : t.named c p with
      | none =>
        obtain ⟨e, he⟩ := o2 hp hn
        simp only [exec, setType, he, spec, hp, ↓reduceIte, hn, Option.map_none]
        exact ⟨r, rfl⟩
      | some n =>
        have m := main _ (o3 hp n hn) (by rintro _ ⟨⟩; exact named_cls hn) (by simp)
        simp only [spec, hp, ↓reduceIte, hn, Option.map_some] at m ⊢
        rcases block_ok (t := t) cb with ⟨e, h1, h2⟩ | ⟨k, h1, h2⟩ <;> simp only [h2] at m ⊢ <;> exact m
  | checkType c name cb =>
    simp only [exec, spec, checkType]
    rcases block_ok (t := t) cb with ⟨e, h1, h2⟩ | ⟨k, h1, h2⟩
    · simp only [h1, h2]; exact ⟨r, rfl⟩
    · simp only [h1, h2]
      have hf := checkNested_fair ok t.alg (L.typeName c) name k.tag
      rcases hx : checkNested L t.alg (L.typeName c) name k.tag with ⟨g, x⟩
      rw [hx] at hf
      cases x with
      | error e => cases e <;> first | exact agree_alg r hf _ _ | exact trivial
      | ok u => exact agree_alg r hf _ _
  | clone c p =>
    simp only [exec, spec, clone]
    by_cases hp : p = 0
    · subst hp
      have : t.named c 0 = none := by simp [Prog.named, r.null]
      simp only [↓reduceIte, this]
      exact ⟨r, rfl⟩
    · rw [if_neg hp]
      cases hn : t.named c p with
      | none => simp only [(exact_get (r.typed c) hp).2 hn]; exact ⟨r, rfl⟩
      | some n =>
        simp only [(exact_get (r.typed c) hp).1 n hn]
        obtain ⟨o, ho, hc⟩ := r.cls p c n (named_cls hn)
        have hf := clone_fair L t.alg n
        rcases hx : cloneObj t.alg n with ⟨g, x⟩
        rw [hx] at hf
        cases x with
        | error e => simp [cloneObj, ho] at hx
        | ok m =>
          obtain ⟨s', h1, h2⟩ := rel_hand (rel_alg r hf) hl.1 hl.2 ⟨o, (clone_class ho hx).2, hc⟩
          simp only [h1, answer, hand]
          exact ⟨h2, rfl⟩
  | typeName p =>
    simp only [exec, spec, typeName]
    cases hp : t.live p with
    | none => obtain ⟨e, he⟩ := (get_gen r p).1 hp; simp only [he]; exact ⟨r, rfl⟩
    | some x =>
      obtain ⟨c, n⟩ := x
      obtain ⟨o, ho, hc⟩ := r.cls p c n hp
      simp only [(get_gen r p).2 c n hp, ho, hc]
      exact ⟨r, rfl⟩
  | implName p =>
    simp only [exec, spec, implName]
    cases hp : t.live p with
    | none => obtain ⟨e, he⟩ := (get_gen r p).1 hp; simp only [he]; exact ⟨r, rfl⟩
    | some x =>
      obtain ⟨c, n⟩ := x
      obtain ⟨o, ho, hc⟩ := r.cls p c n hp
      simp only [(get_gen r p).2 c n hp, ho]
      exact ⟨r, rfl⟩
  | getImpl p =>
    simp only [exec, spec, getImpl]
    cases hp : t.live p with
    | none => obtain ⟨e, he⟩ := (get_gen r p).1 hp; simp only [he]; exact ⟨r, rfl⟩
    | some x =>
      obtain ⟨c, n⟩ := x
      simp only [(get_gen r p).2 c n hp]
      have hf := ok.get t.alg n
      rcases hx : L.getCfg t.alg n with ⟨g, y⟩
      rw [hx] at hf
      cases y with
      | error e => cases e <;> first | exact agree_alg r hf _ _ | exact trivial
      | ok k =>
        have : ∃ x', store t.cfgs ⟨a, k⟩ = (x', .ok ()) := by
          unfold store
          rw [if_neg hl]
          split <;> exact ⟨_, rfl⟩
        obtain ⟨x', hx'⟩ := this
        simp only [hx', answer]
        exact ⟨rel_world r x' hf, rfl⟩
  | setImpl p cb =>
    simp only [exec, spec, setImpl]
    cases hp : t.live p with
    | none => obtain ⟨e, he⟩ := (get_gen r p).1 hp; simp only [he]; exact ⟨r, rfl⟩
    | some x =>
      obtain ⟨c, n⟩ := x
      simp only [(get_gen r p).2 c n hp]
      rcases block_ok (t := t) cb with ⟨e, h1, h2⟩ | ⟨k, h1, h2⟩
      · simp only [h1, h2]; exact ⟨r, rfl⟩
      · simp only [h1, h2]
        have hf := ok.set t.alg n k.tag
        rcases hx : L.setCfg t.alg n k.tag with ⟨g, y⟩
        rw [hx] at hf
        cases y with
        | error e => cases e <;> first | exact agree_alg r hf _ _ | exact trivial
        | ok k => exact agree_alg r hf _ _
  | checkImpl p cb =>
    simp only [exec, spec, checkImpl]
    cases hp : t.live p with
    | none => obtain ⟨e, he⟩ := (get_gen r p).1 hp; simp only [he]; exact ⟨r, trivial⟩
    | some x =>
      obtain ⟨c, n⟩ := x
      simp only [(get_gen r p).2 c n hp]
      rcases block_ok (t := t) cb with ⟨e, h1, h2⟩ | ⟨k, h1, h2⟩
      · simp only [h1, h2]; exact ⟨r, trivial⟩
      · simp only [h1, h2]
        have hf := ok.check t.alg n k.tag
        rcases hx : L.checkCfg t.alg n k.tag with ⟨g, y⟩
        rw [hx] at hf
        cases y with
        | error e => cases e <;> first | exact agree_alg r hf _ _ | exact trivial
        | ok k => exact ⟨rel_alg r hf, trivial⟩
  | outside g x => exact ⟨rel_world r x hl, rfl⟩

/-- Two lists of answers agree call by call. -/
def SameAll : List (Nat × Call δ) → List Res → List Res → Prop
  | [], [], [] => True
  | (_, c) :: l, r :: rs, r' :: rs' => Same c r r' ∧ SameAll l rs rs'
  | _, _, _ => False

theorem rel_all {L : Lib δ} (ok : LibOk L) : ∀ (l : List (Nat × Call δ)) {s : St δ} {t : Prog δ}, Rel L s t → LegalRun L t l →
    (specAll L t l = none → execAll L s l = none) ∧
    ∀ t' rs', specAll L t l = some (t', rs') → ∃ s' rs, execAll L s l = some (s', rs) ∧ Rel L s' t' ∧ SameAll l rs rs'
  | [], s, t, r, _ => ⟨by simp [specAll], by
      intro t' rs' h
      simp only [specAll, Option.some.injEq, Prod.mk.injEq] at h
      obtain ⟨rfl, rfl⟩ := h
      exact ⟨s, [], rfl, r, trivial⟩⟩
  | (a, c) :: l, s, t, r, hl => by
    have h := rel_exec ok r hl.1
    cases hs : spec L t a c with
    | none =>
      rw [hs] at h
      cases he : exec L s a c with
      | none => exact ⟨fun _ => by simp [execAll, he], by simp [specAll, hs]⟩
      | some x => rw [he] at h; exact absurd h (by simp [Agree])
    | some y =>
      obtain ⟨t1, r1⟩ := y
      rw [hs] at h
      cases he : exec L s a c with
      | none => rw [he] at h; exact absurd h (by simp [Agree])
      | some x =>
        obtain ⟨s1, q1⟩ := x
        rw [he] at h
        obtain ⟨h1, h2⟩ := h
        obtain ⟨i1, i2⟩ := rel_all ok l h1 (hl.2 t1 r1 hs)
        refine ⟨fun hn => ?_, fun t' rs' hn => ?_⟩
        · simp only [specAll, hs] at hn
          cases hsp : specAll L t1 l with
          | none => simp only [execAll, he, i1 hsp]
          | some z => rw [hsp] at hn; cases hn
        · simp only [specAll, hs] at hn
          cases hsp : specAll L t1 l with
          | none => rw [hsp] at hn; cases hn
          | some z =>
            obtain ⟨t2, rs2⟩ := z
            rw [hsp] at hn
            simp only [Option.some.injEq, Prod.mk.injEq] at hn
            obtain ⟨rfl, rfl⟩ := hn
            obtain ⟨s2, q2, j1, j2, j3⟩ := i2 t2 rs2 hsp
            exact ⟨s2, q1 :: q2, by simp only [execAll, he, j1], j2, h2, j3⟩

/-- C129.  Every legal history of C calls has exactly the effect on the C++ world that the specified C++ program has, gives the same
    answers (except check_impl_configuration, C130), is undefined only where that program is, and ends with a handle accepted by the
    general functions, and by the functions of one class only, exactly when the specified table says it names an object of that class. -/
theorem C129_refines {L : Lib δ} (ok : LibOk L) (calls : List (Nat × Call δ)) (hl : LegalRun L Prog.init calls) :
    (specAll L Prog.init calls = none → execAll L St.init calls = none) ∧
    ∀ (t : Prog δ) (rs' : List Res), specAll L Prog.init calls = some (t, rs') →
      ∃ (s : St δ) (rs : List Res), execAll L St.init calls = some (s, rs) ∧ SameAll calls rs rs' ∧ s.alg = t.alg ∧ s.cfgs = t.cfgs ∧
        ∀ p n, (get s.gen p = .ok ⟨p, n⟩ ↔ ∃ c, t.live p = some (c, n)) ∧ ∀ c, (get (s.typed c) p = .ok ⟨p, n⟩ ↔ t.live p = some (c, n)) := by
  obtain ⟨h1, h2⟩ := rel_all ok calls (rel_init L) hl
  refine ⟨h1, fun t rs' h => ?_⟩
  obtain ⟨s, rs, e, r, sm⟩ := h2 t rs' h
  refine ⟨s, rs, e, sm, r.alg, r.cfgs, fun p n => ?_⟩
  by_cases hp : p = 0
  · subst hp
    refine ⟨by simp [get, r.null], fun c => by simp [get, r.null]⟩
  · refine ⟨⟨fun hg => ?_, fun ⟨c, hc⟩ => (get_gen r p).2 c n hc⟩, fun c => ⟨fun hg => ?_, fun hc => ?_⟩⟩
    · cases hlv : t.live p with
      | none => obtain ⟨e, he⟩ := (get_gen r p).1 hlv; rw [he] at hg; cases hg
      | some x => obtain ⟨c, m⟩ := x; rw [(get_gen r p).2 c m hlv] at hg; cases hg; exact ⟨c, rfl⟩
    · cases hn : t.named c p with
      | none => rw [(exact_get (r.typed c) hp).2 hn] at hg; cases hg
      | some m => rw [(exact_get (r.typed c) hp).1 m hn] at hg; cases hg; exact named_cls hn
    · exact (exact_get (r.typed c) hp).1 n (by simp [Prog.named, hc])

/-- The state after a legal history, with the specified program. -/
def After (L : Lib δ) (s : St δ) (t : Prog δ) : Prop :=
  ∃ calls rs rs', LegalRun L Prog.init calls ∧ execAll L St.init calls = some (s, rs) ∧ specAll L Prog.init calls = some (t, rs')

theorem after_rel {L : Lib δ} (ok : LibOk L) {s : St δ} {t : Prog δ} (h : After L s t) : Rel L s t := by
  obtain ⟨calls, rs, rs', hl, he, hs⟩ := h
  obtain ⟨s', q, e, r, _⟩ := (rel_all ok calls (rel_init L) hl).2 t rs' hs
  rw [he] at e
  cases e
  exact r

/-- After any legal history, set_type_config with no type entry or an unregistered implementation changes nothing at all, and
    `*algo` keeps its value ("else the algo doesn't change"); a handle of another class or a dead handle is likewise refused by
    get_type_config, set_type_config and clone. -/
theorem C129_refused {L : Lib δ} (ok : LibOk L) {s : St δ} {t : Prog δ} (h : After L s t) (a c : Nat) (name : Str) (cb p : Nat) :
    (∀ k, t.block cb = some k → (p = 0 ∨ ∃ n, t.live p = some (c, n)) →
      (hasValue t.alg.cfg k (typeKey name) = .ok false ∨
        ∃ i, hasValue t.alg.cfg k (typeKey name) = .ok true ∧ getValue t.alg.cfg k (typeKey name) = .ok i ∧ i ∉ registeredNames t.alg (L.typeName c)) →
      exec L s a (.setType c name cb p) = some (s, .handle p)) ∧
    (p ≠ 0 → (∀ n, t.live p ≠ some (c, n)) →
      exec L s a (.setType c name cb p) = some (s, .handle p) ∧ exec L s a (.getType c name p cb) = some (s, .void) ∧
      exec L s a (.clone c p) = some (s, .handle 0)) := by
  have r := after_rel ok h
  have e1 := r.alg
  have e2 := r.cfgs
  refine ⟨fun k hk hp hu => ?_, fun hp hn => ?_⟩
  · have key : ∀ o, (∀ n, o = some n → ∃ x, t.alg.objs[n]? = some x ∧ x.cls = c) → setNestedCls L t.alg c name k o = (t.alg, o, .ok ()) := by
      intro o ho
      have : setNested L t.alg (L.typeName c) name k o = (t.alg, o, .ok ()) := by
        unfold setNested
        rcases hu with hu | ⟨i, hu1, hu2, hu3⟩
        · simp only [hu]
        · simp only [hu1, hu2]
          rw [if_neg (by simp [hasImplName, hu3])]
      unfold setNestedCls
      rw [this]
      cases o with
      | none => rfl
      | some n => obtain ⟨x, hx, hc⟩ := ho n rfl; simp [hx, hc]
    have hg : ∃ kk, get t.cfgs cb = .ok kk ∧ kk.tag = k := by
      rcases block_ok (t := t) cb with ⟨e, h1, h2⟩ | ⟨kk, h1, h2⟩
      · rw [h2] at hk; cases hk
      · rw [h2] at hk; cases hk; exact ⟨kk, h1, rfl⟩
    obtain ⟨kk, hg, rfl⟩ := hg
    obtain ⟨sa, sc, sg, st⟩ := s
    simp only at e1 e2
    subst e1 e2
    by_cases h0 : p = 0
    · subst h0
      simp only [exec, setType, (object_named r c 0).1 rfl, hg, key none (by simp), ne_eq, not_true_eq_false, ↓reduceIte]
    · obtain ⟨n, hn⟩ := hp.resolve_left h0
      have := (object_named r c p).2.2 h0 n (by simp [Prog.named, hn])
      simp only [exec, setType, this, hg, key (some n) (by rintro _ ⟨⟩; exact r.cls p c n hn), ne_eq, not_true_eq_false, ↓reduceIte]
  · have hnm : t.named c p = none := by
      cases hx : t.named c p with
      | none => rfl
      | some n => exact absurd (named_cls hx) (hn n)
    obtain ⟨e, he⟩ := (object_named r c p).2.1 hp hnm
    refine ⟨by simp only [exec, setType, he], by simp only [exec, getType, he], ?_⟩
    simp only [exec, clone, if_neg hp, (exact_get (r.typed c) hp).2 hnm]

/-- After any legal history, set_type_config with a registered implementation clones the registered object, configures the clone from the
    view `name:impl` of the block, and hands out a new handle that works with the general functions and those of the class; the
    old handle is dead everywhere.  When set_configuration throws, `*algo` and every handle keep their values. -/
theorem C129_set_type {L : Lib δ} (ok : LibOk L) {s : St δ} {t : Prog δ} (h : After L s t) {a c : Nat} (ha : a ≠ 0) (hal : t.live a = none)
    {name impl : Str} {cb p k v q : Nat} {x : Inst δ} (hk : t.block cb = some k) (hp : p = 0 ∨ ∃ n, t.live p = some (c, n))
    (h1 : hasValue t.alg.cfg k (typeKey name) = .ok true) (h2 : getValue t.alg.cfg k (typeKey name) = .ok impl)
    (h3 : t.alg.quals.find? (qualified (L.typeName c) impl) = some q) (h4 : t.alg.objs[q]? = some x)
    {h' : Heap} (h5 : subblockView t.alg.cfg k (name ++ blockSep ++ impl) = (h', .ok v)) :
    (∀ g, L.setCfg { t.alg with cfg := h', objs := t.alg.objs ++ [x] } t.alg.objs.length v = (g, .ok ()) →
      ∃ s', exec L s a (.setType c name cb p) = some (s', .handle a) ∧ s'.alg = g ∧ s'.cfgs = s.cfgs ∧
        get s'.gen a = .ok ⟨a, t.alg.objs.length⟩ ∧ get (s'.typed c) a = .ok ⟨a, t.alg.objs.length⟩ ∧
        (∀ n, get s'.gen p ≠ .ok n ∧ ∀ c', get (s'.typed c') p ≠ .ok n) ∧
        ∀ z, z ≠ a → z ≠ p → get s'.gen z = get s.gen z ∧ ∀ c', get (s'.typed c') z = get (s.typed c') z) ∧
    (∀ g e, e ≠ .ub → L.setCfg { t.alg with cfg := h', objs := t.alg.objs ++ [x] } t.alg.objs.length v = (g, .error e) →
      exec L s a (.setType c name cb p) = some ({ s with alg := g }, .handle p)) := by
  have r := after_rel ok h
  have hreg : hasImplName t.alg (L.typeName c) impl = true := by
    simp only [hasImplName, List.contains_iff_mem]
    exact (mem_registered (ok.plain c).1 impl).2 ((OMap.mem_keys_iff _ _).2 (by rw [h3]; simp))
  have hpa : a ≠ p := by
    rintro rfl
    rcases hp with h | ⟨n, h⟩
    · exact ha h
    · rw [hal] at h; cases h
  have hob : ∃ o, object s c p = .ok o ∧ (∀ n, o = some n → t.live p = some (c, n)) := by
    by_cases h0 : p = 0
    · exact ⟨none, (object_named r c p).1 h0, by simp⟩
    · obtain ⟨n, hn⟩ := hp.resolve_left h0
      exact ⟨some n, (object_named r c p).2.2 h0 n (by simp [Prog.named, hn]), by rintro _ ⟨⟩; exact hn⟩
  obtain ⟨o, ho, hol⟩ := hob
  have hsp : (if p = 0 then some none else (t.named c p).map some) = some o := by
    by_cases h0 : p = 0
    · rw [if_pos h0]; rw [(object_named r c p).1 h0] at ho; cases ho; rfl
    · rw [if_neg h0]
      obtain ⟨n, hn⟩ := hp.resolve_left h0
      have hnm : t.named c p = some n := by simp [Prog.named, hn]
      rw [(object_named r c p).2.2 h0 n hnm] at ho
      cases ho
      rw [hnm]; rfl
  have hset : ∀ g y, L.setCfg { t.alg with cfg := h', objs := t.alg.objs ++ [x] } t.alg.objs.length v = (g, y) →
      setNested L t.alg (L.typeName c) name k o = (g, some t.alg.objs.length, y) := by
    intro g y hy
    unfold setNested
    simp only [h1, h2, hreg, ↓reduceIte, Algo.create, h3, cloneObj, h4, h5, hy]
  refine ⟨fun g hg => ?_, fun g e he hg => ?_⟩
  · have hc : setNestedCls L t.alg c name k o = (g, some t.alg.objs.length, .ok ()) := by
      have hn := hset g (.ok ()) hg
      have hx := (setNested_fair ok r.reg c name k o).2 (by rw [hn])
      rw [hn] at hx
      unfold setNestedCls
      rw [hn]
      rcases hx with e | ⟨y, _, hy, hyc⟩
      · simp only at e
        have hlv := hol _ e.symm
        obtain ⟨y, hy, _⟩ := r.cls p c _ hlv
        have := (List.getElem?_eq_some_iff.1 hy).1
        omega
      · simp only at hy
        simp [hy, hyc]
    have hne : o ≠ some t.alg.objs.length := by
      intro e
      obtain ⟨y, hy, _⟩ := r.cls p c _ (hol _ e)
      have := (List.getElem?_eq_some_iff.1 hy).1
      omega
    have ag := rel_exec ok r (a := a) (c := .setType c name cb p) ⟨ha, hal⟩
    simp only [spec, hsp, hk, hc, answer, if_neg hne, hand] at ag
    cases he : exec L s a (.setType c name cb p) with
    | none => rw [he] at ag; exact absurd ag (by simp [Agree])
    | some w =>
      obtain ⟨s', q'⟩ := w
      rw [he] at ag
      obtain ⟨r', sm⟩ := ag
      simp only [Same] at sm
      subst sm
      have hlive : ∀ z, z ≠ a → z ≠ p → (put (put t.live p none) a (some (c, t.alg.objs.length))) z = t.live z := by
        intro z z1 z2; simp [put, z1, z2]
      refine ⟨s', rfl, r'.alg, by rw [r'.cfgs, r.cfgs], (get_gen r' a).2 c _ (by simp [put]), (exact_get (r'.typed c) ha).1 _ (by simp [Prog.named, put]), ?_, ?_⟩
      · intro n
        by_cases h0 : p = 0
        · subst h0; exact ⟨by simp [get], fun c' => by simp [get]⟩
        · obtain ⟨e1, he1⟩ := (get_gen r' p).1 (by simp [put, Ne.symm hpa])
          refine ⟨by rw [he1]; simp, fun c' => ?_⟩
          rw [(exact_get (r'.typed c') h0).2 (by simp [Prog.named, put, Ne.symm hpa])]
          simp
      · intro z z1 z2
        by_cases h0 : z = 0
        · subst h0; exact ⟨rfl, fun c' => rfl⟩
        · have hz := hlive z z1 z2
          refine ⟨?_, fun c' => ?_⟩
          · cases hlz : t.live z with
            | none =>
              rw [(exact_get r'.gen h0).2 (by simp only [hz, hlz]; rfl), (exact_get r.gen h0).2 (by simp only [hlz]; rfl)]
            | some w => rw [(exact_get r'.gen h0).1 w.2 (by simp only [hz, hlz]; rfl), (exact_get r.gen h0).1 w.2 (by simp only [hlz]; rfl)]
          · cases hlz : t.named c' z with
            | none =>
              rw [(exact_get (r'.typed c') h0).2 (by simpa only [Prog.named, hz] using hlz), (exact_get (r.typed c') h0).2 hlz]
            | some w => rw [(exact_get (r'.typed c') h0).1 w (by simpa only [Prog.named, hz] using hlz), (exact_get (r.typed c') h0).1 w hlz]
  · have hn := hset g (.error e) hg
    have hc : setNestedCls L t.alg c name k o = (g, o, .error e) := by unfold setNestedCls; rw [hn]
    have hgk : ∃ kk, get s.cfgs cb = .ok kk ∧ kk.tag = k := by
      rcases block_ok (t := t) cb with ⟨e, g1, g2⟩ | ⟨kk, g1, g2⟩
      · rw [g2] at hk; cases hk
      · rw [g2] at hk; cases hk; exact ⟨kk, by rw [r.cfgs]; exact g1, rfl⟩
    obtain ⟨kk, hgk, rfl⟩ := hgk
    simp only [exec, setType, ho, hgk, r.alg, hc]

/-- Destroying a handle with the function of another class leaves it half alive: the general functions refuse it, the functions of its
    own class still accept it.  (Outside the legal histories; documented nowhere as an error.) -/
theorem C129_wrong_destroy {L : Lib δ} (ok : LibOk L) {s : St δ} {t : Prog δ} (h : After L s t) {p c c' n : Nat} (hp : t.live p = some (c, n))
    (hc : c' ≠ c) (a : Nat) : ∃ s', exec L s a (.destroy c' p) = some (s', .void) ∧
      exec L s' a (.implName p) = some (s', .str none) ∧ get (s'.typed c) p = .ok ⟨p, n⟩ := by
  have r := after_rel ok h
  have h0 : p ≠ 0 := by rintro rfl; rw [r.null] at hp; cases hp
  obtain ⟨g', h1, h2⟩ := exact_erase r.gen h0
  obtain ⟨k', h3, h4⟩ := exact_erase (r.typed c') h0
  refine ⟨{ s with gen := g', typed := setTyped s.typed c' k' }, by simp only [exec, destroy, eraseBoth, h1, h3], ?_, ?_⟩
  · have : get g' p = .error .noEntry := (exact_get h2 h0).2 (by simp)
    simp only [exec, implName, this]
  · simp only [setTyped, if_neg (Ne.symm hc)]
    exact (exact_get (r.typed c) h0).1 n (by simp [Prog.named, hp])

/-! ### C130 -/

/-- Full property C130: check_impl_configuration answers what the implementation's check answers. -/
def C130_statement (L : Lib δ) : Prop := ∀ (s : St δ) (p cb : Nat) (sp k : Sptr) (g : Algo.St δ) (b : Bool), get s.gen p = .ok sp → get s.cfgs cb = .ok k →
  L.checkCfg s.alg sp.tag k.tag = (g, .ok b) → ∃ s', checkImpl L s p cb = some (s', .bool b)

/-- C130 is false of the code: the answer is `false` for every implementation, object and configuration. -/
theorem C130_refuted : (∀ (L : Lib δ) (s s' : St δ) (p cb : Nat) (x : Res), checkImpl L s p cb = some (s', x) → x = .bool false) ∧
    ∀ (L : Lib δ) (s : Algo.St δ) (n k : Nat), (∃ g, L.checkCfg s n k = (g, .ok true)) → ¬ C130_statement L := by
  have main : ∀ (L : Lib δ) (s s' : St δ) (p cb : Nat) (x : Res), checkImpl L s p cb = some (s', x) → x = .bool false := by
    intro L s s' p cb x h
    unfold checkImpl at h
    split at h
    · cases h; rfl
    · split at h
      · cases h; rfl
      · split at h
        · cases h
        · cases h; rfl
  refine ⟨main, ?_⟩
  rintro L s n k ⟨g, hg⟩ hst
  let st : St δ := ⟨s, (store CApi.empty ⟨8, k⟩).1, (store CApi.empty ⟨16, n⟩).1, fun _ => CApi.empty⟩
  obtain ⟨s', hs'⟩ := hst st 16 8 ⟨16, n⟩ ⟨8, k⟩ g true rfl rfl hg
  have := main L st s' 16 8 _ hs'
  cases this

/-- What holds of C130: the effects of the check take place, and when the check answers `false` or throws, or a handle is dead, the
    answer `false` is the documented one.  Missing: the answer `true`. -/
theorem C130_partial (L : Lib δ) (s : St δ) (p cb : Nat) :
    (∀ (sp k : Sptr) (g : Algo.St δ), get s.gen p = .ok sp → get s.cfgs cb = .ok k → L.checkCfg s.alg sp.tag k.tag = (g, .ok false) →
      checkImpl L s p cb = some ({ s with alg := g }, .bool false)) ∧
    (∀ e, get s.gen p = .error e → checkImpl L s p cb = some (s, .bool false)) ∧
    (∀ sp e, get s.gen p = .ok sp → get s.cfgs cb = .error e → checkImpl L s p cb = some (s, .bool false)) := by
  refine ⟨?_, ?_, ?_⟩
  · intro sp k g h1 h2 h3; simp only [checkImpl, h1, h2, h3]
  · intro e h; simp only [checkImpl, h]
  · intro sp e h1 h2; simp only [checkImpl, h1, h2]

/-! ### Example: a plugin with two implementations -/

/-- Two classes whose type names are those of image_io and track_features; objects hold one number, set_configuration adds one. -/
def exLib : Lib Nat where
  typeName := fun n => List.replicate n 'x' ++ c!"image_io"
  getCfg := fun s a => (s, if a < s.objs.length then .ok 0 else .error .ub)
  setCfg := fun s a _ => ({ s with objs := s.objs.modify a (fun o => { o with data := o.data + 1 }) }, .ok ())
  checkCfg := fun s _ _ => (s, .ok true)

theorem exLib_ok : LibOk exLib := by
  refine ⟨fun c c' h => ?_, fun c => ⟨by simp [exLib], ?_⟩, fun s n => fair_refl _ s, fun s n k => ?_, fun s n k => fair_refl _ s⟩
  · have := congrArg List.length h
    simpa [exLib] using this
  · simp only [exLib, List.mem_append, List.mem_replicate, not_or, not_and]
    exact ⟨fun _ => by decide, by decide⟩
  · have K : ∀ (m : Nat) (o : Inst Nat), s.objs[m]? = some o → ∃ o', (exLib.setCfg s n k).1.objs[m]? = some o' ∧ o'.cls = o.cls := by
      intro m o h
      simp only [exLib, List.getElem?_modify, h]
      split
      · exact ⟨_, rfl, rfl⟩
      · exact ⟨o, rfl, rfl⟩
    refine ⟨K, fun h q m hq => ?_, fun h c i m hq => ?_⟩
    · obtain ⟨o, i, h1, h2⟩ := h q m hq
      obtain ⟨o', h3, h4⟩ := K m o h1
      exact ⟨o', i, h3, by rw [h4]; exact h2⟩
    · obtain ⟨o, h1, h2⟩ := h c i m hq
      obtain ⟨o', h3, h4⟩ := K m o h1
      exact ⟨o', h3, by rw [h4]; exact h2⟩

/-- The world after a plugin registered two implementations of class 0 and a config file selected the second. -/
def exWorld : Algo.St Nat :=
  let s := Algo.run exLib [.new ⟨0, c!"ocv", [], 5⟩, .register (some 0), .new ⟨0, c!"vxl", [], 7⟩, .register (some 1)]
  { s with cfg := [{ mkBlock [] none with store := [(c!"reader:type", c!"vxl")] }] }

def exCalls : List (Nat × Call Nat) :=
  [(0, .outside exWorld (store CApi.empty ⟨8, 0⟩).1), (16, .create 0 (c!"ocv")), (24, .setType 0 (c!"reader") 8 16), (0, .implName 24),
   (0, .implName 16), (32, .clone 0 24), (0, .destroy 0 24), (40, .clone 1 32)]

/-- A test of legality for runs without `outside`. -/
def legalB (L : Lib δ) : Prog δ → List (Nat × Call δ) → Bool
  | _, [] => true
  | t, (a, c) :: l =>
    (match c with
      | .destroy c p => (match t.live p with | some (c', _) => c' == c | none => true)
      | .outside _ _ => false
      | .create _ _ => a != 0 && (t.live a).isNone
      | .setType _ _ _ _ => a != 0 && (t.live a).isNone
      | .clone _ _ => a != 0 && (t.live a).isNone
      | .getImpl _ => a != 0
      | _ => true) &&
    (match spec L t a c with
      | none => true
      | some (t', _) => legalB L t' l)

theorem legal_of {L : Lib δ} : ∀ (l : List (Nat × Call δ)) {t : Prog δ}, legalB L t l = true → LegalRun L t l
  | [], _, _ => trivial
  | (a, c) :: l, t, h => by
    simp only [legalB, Bool.and_eq_true] at h
    refine ⟨?_, fun t' r hs => ?_⟩
    · have h1 := h.1
      cases c <;> simp only [Legal] <;> simp only [Bool.and_eq_true, bne_iff_ne, Option.isNone_iff_eq_none] at h1 <;> first
        | exact h1
        | (intro c' n hl; rw [hl] at h1; simpa using h1)
        | cases h1
    · have h2 := h.2
      rw [hs] at h2
      exact legal_of l h2

theorem exWorld_fair : Fair exLib (Prog.init : Prog Nat).alg exWorld := by
    refine ⟨fun n o h => by simp [Prog.init, Algo.St.init] at h, fun _ q n hq => ?_, fun _ c i n hq => ?_⟩
    · have e : exWorld.quals = [(c!"image_io:ocv", 0), (c!"image_io:vxl", 1)] := by decide +kernel
      rw [e] at hq
      simp only [OMap.find?] at hq
      split at hq
      · rename_i h; cases hq; exact ⟨⟨0, c!"ocv", [], 5⟩, c!"ocv", by decide +kernel, by subst h; decide +kernel⟩
      · split at hq
        · rename_i h; cases hq; exact ⟨⟨0, c!"vxl", [], 7⟩, c!"vxl", by decide +kernel, by subst h; decide +kernel⟩
        · cases hq
    · have e : exWorld.byCls c = if c = 0 then [(c!"ocv", 0), (c!"vxl", 1)] else [] := by
        by_cases h : c = 0
        · subst h; decide +kernel
        · simp [exWorld, Algo.run, Algo.step, registerInstance, registerQual, registerCls, h, Algo.St.init]
      rw [e] at hq
      split at hq
      · rename_i h0
        subst h0
        simp only [OMap.find?] at hq
        split at hq
        · cases hq; exact ⟨⟨0, c!"ocv", [], 5⟩, by decide +kernel, rfl⟩
        · split at hq
          · cases hq; exact ⟨⟨0, c!"vxl", [], 7⟩, by decide +kernel, rfl⟩
          · cases hq
      · simp [OMap.find?] at hq

theorem exCalls_legal : LegalRun exLib Prog.init exCalls :=
  ⟨exWorld_fair, fun t' r h => by cases h; exact legal_of _ (by decide +kernel)⟩

/-- The answers: the second implementation was cloned at 24 and configured (7 + 1), handle 16 is dead, the clone at 32 is refused by class 1. -/
example : (execAll exLib St.init exCalls).map (fun x => x.2) = some [.void, .handle 16, .handle 24, Cfg.newString (c!"vxl"), .str none, .handle 32, .void, .handle 0] ∧
    (execAll exLib St.init exCalls).map (fun x => x.1.alg.objs.map (·.data)) = some [5, 7, 5, 8, 8] := by decide +kernel

example : exLib.checkCfg exWorld 0 0 = (exWorld, .ok true) := rfl

end Vital.CApi.Alg
