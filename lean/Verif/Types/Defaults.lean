import Verif.Geo.Camera
import Verif.Geo.Similarity
import Verif.Types.Timestamp
import Verif.Track.Props
import Verif.CApi.Utils
import Verif.Types.Image
/- Property C163: what default constructed objects are. -/
namespace Vital.Defaults
open Vital.Geo

/-- C163: default constructed intrinsics map every point to itself and have the identity as matrix; a default constructed camera is at the origin, sees along the z axis
    and projects a point to `x/z, y/z`; the default similarity moves no point. -/
theorem C163_geometry : (∀ p : V2, Intr.default.map p = p) ∧ Intr.default.asMatrix = M3.one ∧ Intr.default.d = [] ∧
    (∀ p : V3, Camera.default.project p = ⟨p.x / p.z, p.y / p.z⟩) ∧ (∀ p : V3, Camera.default.depth p = p.z) ∧ Camera.default.center = ⟨0, 0, 0⟩ ∧
    (∀ v : V3, Sim.identity.apply v = v) := by
  have hmap : ∀ p : V2, Intr.default.map p = p := by
    intro p
    have hd : ∀ x : V2, Intr.distort [] x = x := by
      intro x
      unfold Intr.distort Intr.radialScale Intr.offset
      ext <;> simp
    unfold Intr.map
    simp only [Intr.default, hd]
    ext <;> simp
  have hrot : ∀ v : V3, Rotation.identity.apply v = v := by
    intro v
    unfold Rotation.apply Rotation.identity Quat.rotate Quat.vec V3.cross
    ext <;> simp
  have hsub : ∀ p : V3, p - (⟨0, 0, 0⟩ : V3) = p := by intro p; ext <;> simp
  refine ⟨hmap, ?_, rfl, ?_, ?_, rfl, ?_⟩
  · unfold Intr.asMatrix M3.one Intr.default
    ext <;> simp
  · intro p
    unfold Camera.project Intr.map3 Camera.default
    simp only [hsub, hrot, hmap]
  · intro p
    unfold Camera.depth Camera.default
    simp only [hsub, hrot]
  · intro v
    unfold Sim.apply Sim.identity
    simp only [hrot]
    ext <;> simp

open Vital.Timestamp in
/-- C163: a default constructed timestamp is valid in no part, with time and frame 0 in domain 0; a default constructed track has no states and the id 0, as has a track of one state;
    a new error handle has the code 0 and no message. -/
theorem C163_values : (mk0.validTime = false ∧ mk0.validFrame = false ∧ mk0.time = 0 ∧ mk0.frame = 0 ∧ mk0.domain = 0) ∧
    (∀ F D : Type, (Track.mkEmpty : Track.Track F D).history = [] ∧ (Track.mkEmpty : Track.Track F D).id = 0 ∧ ∀ s : Track.State F D, (Track.mkSingle s).history = [s] ∧ (Track.mkSingle s).id = 0) ∧
    (CApi.ehNew.code = 0 ∧ CApi.ehNew.message.isNone) := ⟨by decide, fun _ _ => ⟨rfl, rfl, fun _ => ⟨rfl, rfl⟩⟩, rfl, rfl⟩

open Vital.Image in
/-- C163: a default constructed image has no memory, no pixels and zero steps; the copy of it is the same, and giving it a size makes a planar image of that size. -/
theorem C163_image : mkNull.data = none ∧ (mkNull.w = 0 ∧ mkNull.h = 0 ∧ mkNull.d = 0) ∧ (mkNull.ws = 0 ∧ mkNull.hs = 0 ∧ mkNull.ds = 0) ∧ share mkNull = mkNull ∧
    ∀ (B : Type) (m : Mem B) (u : Int → B) (w h d : Nat), (w, h, d) ≠ (0, 0, 0) → setSize m u mkNull w h d = mkImage m u w h d false := by
  refine ⟨rfl, ⟨rfl, rfl, rfl⟩, ⟨rfl, rfl, rfl⟩, rfl, ?_⟩
  intro B m u w h d hn
  have : ¬ (w = mkNull.w ∧ h = mkNull.h ∧ d = mkNull.d) := by
    rintro ⟨h1, h2, h3⟩
    exact hn (by rw [h1, h2, h3]; rfl)
  unfold setSize mkImage
  rw [if_neg this]
  simp [mkNull, alloc]

end Vital.Defaults
