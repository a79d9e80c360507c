import Mathlib.Logic.Relation
import Mathlib.Data.List.Nodup
import Mathlib.Data.List.Flatten
import Mathlib.Data.List.Pairwise
import Mathlib.Order.Basic

/-!
# Contracting connected parts of a relation without closed chains
-/

namespace Ply

open Relation (ReflTransGen)

variable {α : Type}

/-- From each element one gets to each other without leaving the list. -/
def Joined (M : α → α → Prop) (R : List α) : Prop := ∀ a ∈ R, ∀ b ∈ R, ReflTransGen (fun x y => x ∈ R ∧ y ∈ R ∧ M x y) a b

/-- The element has at most one neighbour in the list. -/
def Leaf (M : α → α → Prop) (F : List α) (l : α) : Prop := ∀ P ∈ F, ∀ Q ∈ F, P ≠ l → Q ≠ l → M l P → M l Q → P = Q

/-- Every part of the list has an element with at most one neighbour. -/
def Treelike (M : α → α → Prop) (Ls : List α) : Prop :=
  ∀ F : List α, F ≠ [] → F.Nodup → (∀ L ∈ F, L ∈ Ls) → ∃ l ∈ F, Leaf M F l

/-- Some elements of the two lists are related. -/
def Related (M : α → α → Prop) (G H : List α) : Prop := ∃ a ∈ G, ∃ b ∈ H, M a b

theorem Leaf.sub {M : α → α → Prop} {F G : List α} {l : α} (h : Leaf M F l) (hs : ∀ x ∈ G, x ∈ F) : Leaf M G l :=
  fun P hP Q hQ => h P (hs P hP) Q (hs Q hQ)

theorem Joined.neighbour {M : α → α → Prop} {R : List α} (h : Joined M R) {l t : α} (hl : l ∈ R) (ht : t ∈ R) (hne : t ≠ l) :
    ∃ s ∈ R, s ≠ l ∧ M l s := by
  have key : ∀ x, ReflTransGen (fun x y => x ∈ R ∧ y ∈ R ∧ M x y) x t → x = l → ∃ s ∈ R, s ≠ l ∧ M l s := by
    intro x hx
    induction hx using ReflTransGen.head_induction_on with
    | refl => exact fun e => absurd e hne
    | @head a c h1 _ ih =>
      rintro rfl
      by_cases hc : c = a
      · exact ih hc
      · exact ⟨c, h1.2.1, hc, h1.2.2⟩
  exact key l (h l hl t ht) rfl

variable [DecidableEq α]

theorem Joined.erase {M : α → α → Prop} (hM : ∀ a b, M a b → M b a) {R : List α} (hn : R.Nodup) (h : Joined M R) {l : α} (hl : l ∈ R)
    (hf : Leaf M R l) : Joined M (R.erase l) := by
  have mG : ∀ c, c ∈ R.erase l ↔ c ≠ l ∧ c ∈ R := fun c => hn.mem_erase_iff
  intro a ha b hb
  obtain ⟨s, hs, hsl, hls⟩ := h.neighbour hl ((mG a).1 ha).2 ((mG a).1 ha).1
  have hstep : ∀ x y, ReflTransGen (fun x y => x ∈ R ∧ y ∈ R ∧ M x y) x y →
      ReflTransGen (fun x y => x ∈ R.erase l ∧ y ∈ R.erase l ∧ M x y) (if x = l then s else x) (if y = l then s else y) := by
    intro x y hxy
    induction hxy with
    | refl => exact .refl
    | @tail c d _ h2 ih =>
      obtain ⟨hc, hd, hcd⟩ := h2
      refine ih.trans ?_
      by_cases e1 : c = l
      · by_cases e2 : d = l
        · rw [e1, e2]
        · have : d = s := hf d hd s hs e2 hsl (e1 ▸ hcd) hls
          rw [if_pos e1, this, if_neg hsl]
      · by_cases e2 : d = l
        · have : c = s := hf c hc s hs e1 hsl (hM _ _ (e2 ▸ hcd)) hls
          rw [if_pos e2, this, if_neg hsl]
        · rw [if_neg e1, if_neg e2]
          exact .single ⟨(mG c).2 ⟨e1, hc⟩, (mG d).2 ⟨e2, hd⟩, hcd⟩
  have := hstep a b (h a ((mG a).1 ha).2 b ((mG b).1 hb).2)
  rwa [if_neg ((mG a).1 ha).1, if_neg ((mG b).1 hb).1] at this

/-- Two connected parts are related at most once. -/
theorem Treelike.once {M : α → α → Prop} (hM : ∀ a b, M a b → M b a) {Ls : List α} (hT : Treelike M Ls) (n : ℕ) :
    ∀ R S : List α, R.length + S.length = n → (R ++ S).Nodup → (∀ x ∈ R ++ S, x ∈ Ls) → Joined M R → Joined M S →
      ∀ a ∈ R, ∀ b ∈ S, ∀ a' ∈ R, ∀ b' ∈ S, M a b → M a' b' → a = a' ∧ b = b' := by
  induction n using Nat.strongRecOn with
  | _ n ih =>
    have side : ∀ R S : List α, R.length + S.length = n → (R ++ S).Nodup → (∀ x ∈ R ++ S, x ∈ Ls) → Joined M R → Joined M S →
        ∀ l ∈ R, Leaf M (R ++ S) l → ∀ a ∈ R, ∀ b ∈ S, ∀ a' ∈ R, ∀ b' ∈ S, M a b → M a' b' → a = a' ∧ b = b' := by
      intro R S hlen hnd hsub hR hS l hl hleaf a ha b hb a' ha' b' hb' h1 h2
      obtain ⟨nR, nS, dis⟩ := List.nodup_append.1 hnd
      have nl : ∀ x ∈ S, x ≠ l := fun x hx e => dis l hl x hx e.symm
      by_cases hone : ∀ t ∈ R, t = l
      · obtain rfl := hone a ha
        obtain rfl := hone a' ha'
        exact ⟨rfl, hleaf b (List.mem_append_right _ hb) b' (List.mem_append_right _ hb') (nl b hb) (nl b' hb') h1 h2⟩
      · push Not at hone
        obtain ⟨t, ht, htl⟩ := hone
        obtain ⟨s, hs, hsl, hls⟩ := hR.neighbour hl ht htl
        have off : ∀ x ∈ R, ∀ y ∈ S, M x y → x ≠ l := by
          rintro x - y hy hxy rfl
          exact dis s hs y hy (hleaf s (List.mem_append_left _ hs) y (List.mem_append_right _ hy) hsl (nl y hy) hls hxy)
        refine ih _ ?_ (R.erase l) S rfl ((List.Sublist.append_right List.erase_sublist _).nodup hnd)
          (fun x hx => hsub x ((List.Sublist.append_right List.erase_sublist _).subset hx))
          (hR.erase hM nR hl (hleaf.sub fun x hx => List.mem_append_left _ hx)) hS a
          (nR.mem_erase_iff.2 ⟨off a ha b hb h1, ha⟩) b hb a' (nR.mem_erase_iff.2 ⟨off a' ha' b' hb' h2, ha'⟩) b' hb' h1 h2
        rw [List.length_erase_of_mem hl]
        have := List.length_pos_of_mem hl
        omega
    intro R S hlen hnd hsub hR hS a ha b hb a' ha' b' hb' h1 h2
    obtain ⟨l, hl, hleaf⟩ := hT (R ++ S) (List.ne_nil_of_mem (List.mem_append_left _ ha)) hnd hsub
    rcases List.mem_append.1 hl with hl | hl
    · exact side R S hlen hnd hsub hR hS l hl hleaf a ha b hb a' ha' b' hb' h1 h2
    · have := side S R (by omega) (List.perm_append_comm.nodup hnd) (fun x hx => hsub x (List.perm_append_comm.mem_iff.1 hx)) hS hR
        l hl (hleaf.sub fun x hx => List.perm_append_comm.mem_iff.1 hx) b hb a ha b' hb' a' ha' (hM _ _ h1) (hM _ _ h2)
      exact this.symm

omit [DecidableEq α] in
theorem same_group {Gs : List (List α)} (h : Gs.flatten.Nodup) {G H : List α} (hG : G ∈ Gs) (hH : H ∈ Gs) {x : α} (h1 : x ∈ G)
    (h2 : x ∈ H) : G = H := by
  by_contra hne
  have hp := (List.nodup_flatten.1 h).2
  have : Std.Symm (List.Disjoint (α := α)) := ⟨fun _ _ h => List.disjoint_symm h⟩
  exact (hp.forall hG hH hne) h1 h2

/-- Connected parts, taken as single elements, make no closed chain either. -/
theorem Treelike.contract {M : α → α → Prop} (hM : ∀ a b, M a b → M b a) {Ls : List α} (hT : Treelike M Ls) (n : ℕ) :
    ∀ Gs : List (List α), Gs.flatten.length = n → Gs ≠ [] → Gs.flatten.Nodup → (∀ G ∈ Gs, G ≠ []) → (∀ G ∈ Gs, Joined M G) →
      (∀ x ∈ Gs.flatten, x ∈ Ls) →
      ∃ G ∈ Gs, ∀ H ∈ Gs, ∀ K ∈ Gs, H ≠ G → K ≠ G → Related M G H → Related M G K → H = K := by
  induction n using Nat.strongRecOn with
  | _ n ih =>
    intro Gs hlen hGs hnd hne hJ hsub
    have hne' : Gs.flatten ≠ [] := by
      obtain ⟨G, hG⟩ := List.exists_mem_of_ne_nil Gs hGs
      obtain ⟨x, hx⟩ := List.exists_mem_of_ne_nil G (hne G hG)
      exact List.ne_nil_of_mem (List.mem_flatten.2 ⟨G, hG, hx⟩)
    obtain ⟨l, hl, hleaf⟩ := hT Gs.flatten hne' hnd hsub
    obtain ⟨G, hG, hlG⟩ := List.mem_flatten.1 hl
    have mem : ∀ H ∈ Gs, ∀ x ∈ H, x ∈ Gs.flatten := fun H hH x hx => List.mem_flatten.2 ⟨H, hH, hx⟩
    have nG : ∀ H ∈ Gs, H.Nodup := (List.nodup_flatten.1 hnd).1
    by_cases hone : ∀ t ∈ G, t = l
    · refine ⟨G, hG, ?_⟩
      rintro H hH K hK n1 n2 ⟨a, ha, b, hb, h1⟩ ⟨a', ha', b', hb', h2⟩
      obtain rfl := hone a ha
      obtain rfl := hone a' ha'
      have q1 : b ≠ a' := fun e => n1 (same_group hnd hH hG hb (e ▸ hlG))
      have q2 : b' ≠ a' := fun e => n2 (same_group hnd hK hG hb' (e ▸ hlG))
      have := hleaf b (mem H hH b hb) b' (mem K hK b' hb') q1 q2 h1 h2
      exact same_group hnd hH hK hb (this ▸ hb')
    · push Not at hone
      obtain ⟨t, ht, htl⟩ := hone
      obtain ⟨s, hs, hsl, hls⟩ := (hJ G hG).neighbour hlG ht htl
      have hsubl : (Gs.map fun X => X.erase l).flatten.Sublist Gs.flatten := by
        have key : ∀ l' : List (List α), (l'.map fun X => X.erase l).flatten.Sublist l'.flatten := by
          intro l'
          induction l' with
          | nil => exact List.Sublist.refl _
          | cons a l' ih' =>
            rw [List.map_cons, List.flatten_cons, List.flatten_cons]
            exact List.erase_sublist.append ih'
        exact key Gs
      have hne2 : ∀ X ∈ Gs, ∃ x, x ∈ X.erase l := by
        intro X hX
        by_cases h : l ∈ X
        · obtain rfl := same_group hnd hX hG h hlG
          exact ⟨s, (nG X hX).mem_erase_iff.2 ⟨hsl, hs⟩⟩
        · rw [List.erase_of_not_mem h]
          exact List.exists_mem_of_ne_nil X (hne X hX)
      have hlt : (Gs.map fun X => X.erase l).flatten.length < n := by
        rw [← hlen]
        rcases Nat.lt_or_eq_of_le hsubl.length_le with h | h
        · exact h
        · have := hsubl.eq_of_length h
          rw [← this] at hl
          obtain ⟨Y, hY, hlY⟩ := List.mem_flatten.1 hl
          obtain ⟨X, hX, rfl⟩ := List.mem_map.1 hY
          exact absurd rfl ((nG X hX).mem_erase_iff.1 hlY).1
      obtain ⟨G', hG', key⟩ := ih _ hlt (Gs.map fun X => X.erase l) rfl (by simpa using hGs) (hsubl.nodup hnd) (by
          intro Y hY
          obtain ⟨X, hX, rfl⟩ := List.mem_map.1 hY
          obtain ⟨x, hx⟩ := hne2 X hX
          exact List.ne_nil_of_mem hx) (by
          intro Y hY
          obtain ⟨X, hX, rfl⟩ := List.mem_map.1 hY
          by_cases h : l ∈ X
          · exact (hJ X hX).erase hM (nG X hX) h (hleaf.sub fun x hx => mem X hX x hx)
          · rw [List.erase_of_not_mem h]; exact hJ X hX) (fun x hx => hsub x (hsubl.subset hx))
      obtain ⟨X, hX, rfl⟩ := List.mem_map.1 hG'
      have inj : ∀ H ∈ Gs, ∀ K ∈ Gs, H.erase l = K.erase l → H = K := by
        intro H hH K hK h
        obtain ⟨x, hx⟩ := hne2 H hH
        exact same_group hnd hH hK (List.mem_of_mem_erase hx) (List.mem_of_mem_erase (h ▸ hx))
      have lone : ∀ H ∈ Gs, ∀ K ∈ Gs, H ≠ K → ∀ a ∈ H, ∀ b ∈ K, M a b → a ≠ l := by
        rintro H hH K hK hHK a ha b hb h1 rfl
        obtain rfl := same_group hnd hH hG ha hlG
        have : b ≠ a := fun e => hHK (same_group hnd hH hK ha (e ▸ hb))
        have := hleaf b (mem K hK b hb) s (mem H hH s hs) this hsl h1 hls
        exact hHK (same_group hnd hH hK hs (this ▸ hb))
      have push : ∀ H ∈ Gs, H ≠ X → Related M X H → Related M (X.erase l) (H.erase l) := by
        rintro H hH hHX ⟨a, ha, b, hb, h1⟩
        exact ⟨a, (nG X hX).mem_erase_iff.2 ⟨lone X hX H hH hHX.symm a ha b hb h1, ha⟩, b,
          (nG H hH).mem_erase_iff.2 ⟨lone H hH X hX hHX b hb a ha (hM _ _ h1), hb⟩, h1⟩
      refine ⟨X, hX, fun H hH K hK n1 n2 t1 t2 => inj H hH K hK ?_⟩
      exact key _ (List.mem_map_of_mem hH) _ (List.mem_map_of_mem hK) (fun e => n1 (inj H hH X hX e)) (fun e => n2 (inj K hK X hX e))
        (push H hH n1 t1) (push K hK n2 t2)

end Ply
