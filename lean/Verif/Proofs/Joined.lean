import Verif.Proofs.PlateNet

/-!
# Rings that meet are one connected part of the arrangement
-/

namespace Ply.Arr

open CellMerger Filter Topology
open Relation (ReflTransGen)

/-- Half-edges that start at the same vertex are connected. -/
theorem fan_conn {net : Net} (W : Wheel net) {k k' : Seg} (hk : k ∈ net.halfEdges) (hk' : k' ∈ net.halfEdges) (h : k.1 = k'.1) :
    Conn net k k' := by
  obtain ⟨fan, hfan⟩ := W.keys _ (W.planar.rev k hk)
  have hf := W.fans _ _ hfan
  dsimp only at hf hfan
  have key : ∀ n : ℕ, ∀ θ e, (θ, e) ∈ fan → (fan.filter fun y => decide (y.1 < θ)).length = n →
      ∀ m ∈ fan, (∀ y ∈ fan, m.1 ≤ y.1) → Conn net e m.2 := by
    intro n
    induction n using Nat.strong_induction_on with
    | _ n ih =>
      intro θ e he hn m hm hmin
      obtain ⟨heH, hec, hek⟩ := hf.sound _ he
      obtain ⟨θ', x, hθ', hx, hok, hor⟩ := ccw_spec hf heH hec
      have hθ : θ' = θ := by
        have h1 := (hf.sound _ hθ').2.2
        dsimp only at h1 hek
        rw [hek] at h1
        exact (Except.ok.inj h1).symm
      subst hθ
      rcases hor with ⟨h1, -⟩ | h1
      · have hlt : (fan.filter fun y => decide (y.1 < x.1)).length < n := by
          rw [← hn]
          have hsub : (fan.filter fun y => decide (y.1 < x.1)) = (fan.filter fun y => decide (y.1 < θ')).filter fun y => decide (y.1 < x.1) := by
            rw [List.filter_filter]
            refine List.filter_congr fun y _ => ?_
            by_cases hy : y.1 < x.1
            · simp [hy, hy.trans h1]
            · simp [hy]
          rw [hsub]
          refine lt_of_le_of_ne (List.length_filter_le _ _) fun hc => ?_
          rw [List.length_filter_eq_length_iff] at hc
          have := hc x (List.mem_filter.2 ⟨hx, by simpa using h1⟩)
          simp at this
        have c1 : Conn net x.2 m.2 := ih _ hlt x.1 x.2 hx rfl m hm hmin
        have hxH := (hf.sound _ hx).1
        have c2 : Conn net (e.2, e.1) x.2 := .single ⟨W.planar.rev e heH, hxH, Or.inr (Or.inl ⟨fan, by
          show dget e.1 _ = _
          rw [hec]; exact hfan, by
          show getNextCcw e.1 fan (e.1, e.2) = _
          dsimp only at hec
          rw [hec]
          have : (k.1, e.2) = e := Prod.ext hec.symm rfl
          rw [this]
          exact hok⟩)⟩
        exact ((conn_rev W heH).trans c2).trans c1
      · have : m.1 = θ' := le_antisymm (hmin _ he) (h1 m hm).1
        have : m = (θ', e) := by
          have hn : (fan.map Prod.fst).Nodup := List.pairwise_map.2 (hf.sorted.imp fun h => h.ne)
          exact List.inj_on_of_nodup_map hn hm he this
        rw [this]
        exact .refl
  obtain ⟨a, ha⟩ := hf.complete k hk rfl
  obtain ⟨b, hb⟩ := hf.complete k' hk' h.symm
  obtain ⟨m, hm, hmin⟩ : ∃ m ∈ fan, ∀ y ∈ fan, m.1 ≤ y.1 := by
    have hs := hf.sorted
    match fan, ha, hs with
    | x :: l, _, hs =>
      refine ⟨x, List.mem_cons_self, fun y hy => ?_⟩
      rcases List.mem_cons.1 hy with rfl | hy
      · exact le_refl _
      · exact ((List.pairwise_cons.1 hs).1 y hy).le
  exact (key _ a k ha rfl m hm hmin).trans (key _ b k' hb rfl m hm hmin).symm

section
variable {A : Arrangement} {Ls : List (List Pt)} (hR : LoopNet A Ls) {L M : List Pt} (hL : L ∈ Ls)
include hR hL

omit hL in
theorem walk_conn {u u' v v' : Pt} (h : Al A L u u') (hw : ReflTransGen (Al A L) u v) (h' : Al A L v v') :
    Conn A.net (u, u') (v, v') := by
  have W := hR.full.wheel
  induction hw generalizing v' with
  | refl => exact fan_conn W h.mem h'.mem rfl
  | tail _ h2 ih =>
    exact (ih h2).trans ((conn_rev W h2.mem).trans (fan_conn W (W.planar.rev _ h2.mem) h'.mem rfl))

/-- The half-edges along a ring are connected. -/
theorem ring_conn {u u' v v' : Pt} (h : Al A L u u') (h' : Al A L v v') : Conn A.net (u, u') (v, v') :=
  walk_conn hR h ((al_ring hR hL).reach _ _ _ _ h h') h'

/-- The half-edges along two rings that meet are connected. -/
theorem meet_conn (hM : M ∈ Ls) (hm : Meet L M) {u u' v v' : Pt} (h : Al A L u u') (h' : Al A M v v') :
    Conn A.net (u, u') (v, v') := by
  have W := hR.full.wheel
  have hP := W.planar
  obtain ⟨x, hx, hy⟩ := hm
  have key : ∀ {L : List Pt}, L ∈ Ls → OnBoundary L x → ∃ a b, Al A L a b ∧ OnSeg (a, b) x := by
    intro L hL hx
    obtain ⟨e, he, c, c0, c1, rfl⟩ := hx
    by_cases hv : ∃ k ∈ A.net.halfEdges, k.1 = along e c
    · rcases eq_or_lt_of_le c1 with rfl | c1
      · obtain ⟨w, hw⟩ := (al_at_side hR hL he hv).2 one_pos (le_refl _)
        exact ⟨w, _, hw, onSeg_right _⟩
      · obtain ⟨w, hw⟩ := (al_at_side hR hL he hv).1 c0 c1
        exact ⟨_, w, hw, onSeg_left _⟩
    · obtain ⟨k, hk, t, t0, t1, ht⟩ := (hR.on (along e c)).2 ⟨L, hL, e, he, c, c0, c1, rfl⟩
      have t0' : 0 < t := lt_of_le_of_ne t0 (by
        rintro rfl
        exact hv ⟨k, hk, by rw [ht, along_zero]⟩)
      have t1' : t < 1 := lt_of_le_of_ne t1 (by
        rintro rfl
        exact hv ⟨_, hP.rev k hk, by rw [ht, along_one]⟩)
      rcases al_of_inner hR hL hk t0' t1' (ht ▸ ⟨e, he, c, c0, c1, rfl⟩) with al | al
      · exact ⟨_, _, al, ht ▸ ⟨t, t0, t1, rfl⟩⟩
      · exact ⟨_, _, al, (onSeg_rev k _).2 (ht ▸ ⟨t, t0, t1, rfl⟩)⟩
  obtain ⟨a, b, al, o1⟩ := key hL hx
  obtain ⟨c, d, al', o2⟩ := key hM hy
  have hcon : Conn A.net (a, b) (c, d) := by
    rcases hP.meet _ al.mem _ al'.mem x o1 o2 with (q | q) | ⟨q1, q2⟩
    · rw [q]; exact .refl
    · rw [q]; exact conn_rev W al.mem
    · rcases q1 with rfl | rfl <;> rcases q2 with q | q
      · exact fan_conn W al.mem al'.mem q
      · exact (fan_conn W al.mem (hP.rev _ al'.mem) q).trans (conn_rev W al'.mem).symm
      · exact (conn_rev W al.mem).trans (fan_conn W (hP.rev _ al.mem) al'.mem q)
      · exact (conn_rev W al.mem).trans ((fan_conn W (hP.rev _ al.mem) (hP.rev _ al'.mem) q).trans (conn_rev W al'.mem).symm)
  exact (ring_conn hR hL h al).trans (hcon.trans (ring_conn hR hM al' h'))

end

/-- The arrangement of two rings that meet is connected. -/
theorem pair_conn {A : Arrangement} {P Q : List Pt} (hR : LoopNet A [P, Q]) (hm : Meet P Q) {h k : Seg} (hh : h ∈ A.net.halfEdges)
    (hk : k ∈ A.net.halfEdges) : Conn A.net h k := by
  have W := hR.full.wheel
  have key : ∀ {h : Seg}, h ∈ A.net.halfEdges → ∃ L ∈ [P, Q], ∃ u v, Al A L u v ∧ Conn A.net h (u, v) := by
    intro h hh
    obtain ⟨L, hL, al | al⟩ := al_exists hR hh
    · exact ⟨L, hL, _, _, al, .refl⟩
    · exact ⟨L, hL, _, _, al, conn_rev W hh⟩
  obtain ⟨L, hL, u, v, al, c1⟩ := key hh
  obtain ⟨M, hM, u', v', al', c2⟩ := key hk
  have hm' : Meet Q P := by
    obtain ⟨x, h1, h2⟩ := hm
    exact ⟨x, h2, h1⟩
  refine c1.trans (Conn.trans ?_ c2.symm)
  simp only [List.mem_cons, List.not_mem_nil, or_false] at hL hM
  have hP : P ∈ [P, Q] := by simp
  have hQ : Q ∈ [P, Q] := by simp
  rcases hL with rfl | rfl <;> rcases hM with rfl | rfl
  · exact ring_conn hR hP al al'
  · exact meet_conn hR hP hQ hm al al'
  · exact meet_conn hR hQ hP hm' al al'
  · exact ring_conn hR hQ al al'

end Ply.Arr
