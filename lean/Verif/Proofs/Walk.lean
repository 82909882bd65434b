import Verif.Proofs.Insert
/-!
# One insertion (triangulator.go:180-240) for arbitrary predicates
-/
namespace Verif.Proofs
open Verif Verif.Tri2

variable {K : Type} [Field K] [LinearOrder K] [IsStrictOrderedRing K]

/-- what is assumed about the predicates. `Ex` collects the facts that hold only in exact arithmetic. -/
structure Orc {P : Type} (g : Geo P) (Vs : List P) (κ : ℕ → ℕ → K) (Ex : Prop) (m i0 i1 i2 : ℕ) : Prop where
  safe : ∀ p < Vs.length, (p ≠ i0 ∧ p ≠ i1 ∧ p ≠ i2) → Safe g Vs p i0 i1 i2
  lt1 : ∀ v x : P, g.areaLt v v x = false
  lt2 : ∀ v x : P, g.areaLt v x v = false
  anti : Ex → ∀ x y, κ x y = - κ y x
  exLt : Ex → ∀ (i a b : ℕ) (v va vb : P), Vs[i]? = some v → Vs[a]? = some va → Vs[b]? = some vb → g.areaLt v va vb = true →
    0 < κ a i + κ i b - κ a b
  exGe : Ex → ∀ (i a b : ℕ) (v va vb : P), Vs[i]? = some v → Vs[a]? = some va → Vs[b]? = some vb → g.areaGe v va vb = false →
    0 < κ a i + κ i b - κ a b
  key : Ex → ∀ v ∈ Vs, 0 ≤ g.key v ∧ g.key v < m

theorem getVs {P : Type} {Vs : List P} {x : ℕ} (h : x < Vs.length) : ∃ v, Vs[x]? = some v ∧ v ∈ Vs ∧ ∀ z : ℤ, z = x → goGet Vs z = .ok v :=
  ⟨Vs[x], by simp [h], by simp, fun _ hz => goGet_eq hz (by simp [h])⟩

theorem addTriangle_full {c n T : ℕ} {s : St} (S : Shape c n T s) (h : c ≤ 3*T) (x0 x1 x2 a b d : ℤ) :
    addTriangle s x0 x1 x2 a b d = .panic := by
  unfold addTriangle
  dsimp only
  rw [goSet_panic (by rw [S.len, S.tl]; right; omega)]
  rfl

section walks
variable {P : Type} {g : Geo P} {Vs : List P} {κ : ℕ → ℕ → K} {Ex : Prop} {c n i0 i1 i2 m : ℕ} {V : Finset ℕ}

/-- cost of a walk that takes the number of triangles from `T` to `T'`: `T' - T + 1` rounds, `T' - T` calls of `legalize` from outside, `f` flips -/
def WalkW (n i T T' : ℕ) (s s' : St) (x : Weights → Wk St) : Prop :=
  T ≤ T' ∧ ∃ f, f + (nonP T' i (tr s')).card ≤ (nonP T i (tr s)).card ∧
    ∀ w : Weights, ∃ k ≤ w.walk * (T' - T + 1) + legBound w n (T' - T) f, (x w).run = .ok (s', k)

theorem WalkW.stop {n i T : ℕ} {s : St} {x : Weights → Wk St} (h : ∀ w, (x w).run = .ok (s, w.walk)) : WalkW n i T T s s x :=
  ⟨le_refl _, 0, by omega, fun w => ⟨w.walk, by simp, h w⟩⟩

theorem WalkW.step {n i T T' fl : ℕ} {s s1 s2 s' : St} {x y : Weights → Wk St} {X : Weights → Wk (St × ℤ)} {r : ℤ}
    (hadd : (nonP (T+1) i (tr s1)).card ≤ (nonP T i (tr s)).card)
    (hfl : fl + (nonP (T+1) i (tr s2)).card ≤ (nonP (T+1) i (tr s1)).card)
    (hX : ∀ w : Weights, ∃ k ≤ legBound w n 1 fl, (X w).run = .ok ((s2, r), k))
    {s4 : St} (h4 : tr s4 = tr s2) (W : WalkW n i (T+1) T' s4 s' y)
    (h : ∀ (w : Weights) (k l : ℕ), (X w).run = .ok ((s2, r), k) → (y w).run = .ok (s', l) → (x w).run = .ok (s', w.walk + (k + l))) :
    WalkW n i T T' s s' x := by
  obtain ⟨hT, f, hf, hW⟩ := W
  rw [h4] at hf
  refine ⟨by omega, fl + f, by omega, fun w => ?_⟩
  obtain ⟨k, hk, ek⟩ := hX w
  obtain ⟨l, hl, el⟩ := hW w
  refine ⟨_, ?_, h w k l ek el⟩
  obtain ⟨d, rfl⟩ : ∃ d, T' = T + 1 + d := ⟨T' - (T+1), by omega⟩
  rw [show T + 1 + d - (T+1) = d by omega] at hl
  rw [show T + 1 + d - T = d + 1 by omega]
  have e : w.walk * (d + 1 + 1) + legBound w n (d+1) (fl + f) = w.walk + (legBound w n 1 fl + (w.walk * (d + 1) + legBound w n d f)) := by
    unfold legBound; ring
  omega

/-- triangulator.go:219-224 -/
theorem walkForward_ok (O : Orc g Vs κ Ex m i0 i1 i2) (hVs : Vs.length = n) (hc : c + 15 = 6*n) {lf : ℕ} (hlf : c < lf)
    {i : ℕ} {v : P} (hv : Vs[i]? = some v) (hps : i ≠ i0 ∧ i ≠ i1 ∧ i ≠ i2) :
    ∀ (fuel : ℕ) (s : St) (T : ℕ) (R : List ℕ) (q : ℕ), RInv κ Ex c n i0 i1 i2 T V R s → i ∈ R → (nd s i).next = some q → R.length ≤ fuel →
      (∃ s' T' R', walkForward g Vs lf i v fuel s (some q) = .ok s' ∧ RInv κ Ex c n i0 i1 i2 T' V R' s' ∧ i ∈ R' ∧ s'.hash = s.hash ∧ R'.length ≤ R.length ∧
        Fwd g Vs κ Ex c n i0 i1 i2 V i v T R s T' R' s' ∧
        WalkW n i T T' s s' fun w => walkForwardCt w g Vs lf i v fuel s (some q)) ∨
      (walkForward g Vs lf i v fuel s (some q) = .panic ∧ ¬ Ex) := by
  intro fuel
  induction fuel with
  | zero => intro s T R q I _ _ h; have := I.two; omega
  | succ fuel ih =>
    intro s T R q I hiR hnext hfuel
    obtain ⟨l, hperm, hpath⟩ := I.at hiR hnext
    have hnd : (i :: q :: l).Nodup := hperm.nodup_iff.mpr I.nodup
    have hqR : q ∈ R := hperm.mem_iff.mp (by simp)
    have hiq : i ≠ q := by rintro rfl; simp at hnd
    have ilt := I.rlt hiR
    have qlt := I.rlt hqR
    have hnl := I.shape.nl
    obtain ⟨tq, r, htq, hqn, tqlt, tqbd, tqtr, tqnx⟩ := I.own q hqR
    obtain ⟨ti, q', hti, hin, tilt, tibd, titr, tinx⟩ := I.own i hiR
    have : q' = q := by rw [hnext] at hin; injection hin with hin; exact hin.symm
    subst this
    obtain ⟨lq, hpermq, hpathq⟩ := I.at hqR hqn
    have hrR : r ∈ R := hpermq.mem_iff.mp (by simp)
    have rlt := I.rlt hrR
    obtain ⟨vq, wq, mq, gq⟩ := getVs (Vs := Vs) (x := q') (by omega)
    obtain ⟨vr, wr, mr, gr⟩ := getVs (Vs := Vs) (x := r) (by omega)
    rw [walkForward, deref_ok (by omega), Res.bind_ok, gq _ (I.ids q' hqR), Res.bind_ok, hqn, deref_ok (by omega), Res.bind_ok,
      gr _ (I.ids r hrR), Res.bind_ok]
    by_cases hlt : g.areaLt v vq vr = true
    · rw [if_pos hlt]
      have hqp : (nd s q').prev = some i := hpath.1.2
      rw [hqp, deref_ok (by omega), Res.bind_ok]
      have hir : i ≠ r := by
        rintro rfl
        rw [hv] at wr; injection wr with wr; subst wr
        rw [O.lt2] at hlt; exact absurd hlt (by simp)
      obtain ⟨l', rfl⟩ : ∃ l', l = r :: l' := by
        cases l with
        | nil =>
          have := hpath.2.1
          rw [hqn] at this; injection this with this; exact absurd this.symm hir
        | cons r' l' =>
          have := hpath.2.1.1
          rw [hqn] at this; injection this with this; subst this; exact ⟨l', rfl⟩
      have hqr : q' ≠ r := by rintro rfl; simp at hnd
      by_cases hcap : 3*(T+1) ≤ c
      · have dz : ∀ {x z : ℕ}, x ≠ z → (x:ℤ) ≠ (z:ℤ) := fun h => by exact_mod_cast h
        have zr : ∀ {x : ℕ}, x < n → (0:ℤ) ≤ x ∧ (x:ℤ) < n := fun h => by omega
        have pa : Port T (tr s) (he s) (ti : ℕ) q' i := Or.inr ⟨ti, rfl, tilt, tibd, titr, tinx⟩
        have pd : Port T (tr s) (he s) (tq : ℕ) r q' := Or.inr ⟨tq, rfl, tqlt, tqbd, tqtr, tqnx⟩
        obtain ⟨s1, a1, S1, A1, hu1, ha1, no1⟩ := addTriangle_ok I.shape hcap (x0 := q') (x1 := i) (x2 := r) (a := ti) (b := -1) (d := tq)
          (dz hiq.symm) (dz hir) (dz hqr.symm) pa (Or.inl rfl) pd
        have M1 := mesh_add I.mesh A1 (zr qlt) (zr ilt) (zr rlt) (dz hiq.symm) (dz hir) (dz hqr.symm) pa (Or.inl rfl) pd
        obtain ⟨L1, cov1⟩ := walk_pre I (p := i) hiR hqR hti htq S1 A1 M1 hu1 no1
          (by intro k; constructor <;> intro h <;> omega)
          (by right; left; rw [nx_T0]; exact A1.t1)
        have hpa : pv (3*T+2) = 3*T+1 := pv_T2 T
        obtain ⟨s2, σ, f2, L2, P2, F2, fl, hfl, Wl⟩ := legalize_ok hVs hps (O.safe i (by omega) hps) lf s1 (3*T+2) L1 (by omega) (by rw [hpa]; exact A1.t1)
          (fun _ => Or.inl rfl) (by have := nonP_card (T+1) i (tr s1); omega)
        rw [hpa] at f2 Wl
        obtain ⟨s3, s4, y1, y2, y3, y4, y5, y6, _, I5, h5, n5, _, tr4, he4⟩ := walk_post I (b0 := 3*T+1) hperm hpath no1 ha1 ⟨by omega, by omega⟩ A1.h1 A1.t1
          (by rw [nx_T1]; exact A1.t2)
          (by
            intro k hk hk' hb
            rcases new_slot hk (by omega) with rfl | rfl | rfl
            · have := A1.h0; omega
            · rfl
            · have := A1.h2; omega)
          cov1
          (by
            intro k hk
            by_cases hk' : k < 3*T
            · rw [A1.told k hk']; exact I.tV k hk'
            · rcases new_slot hk hk' with rfl | rfl | rfl
              · exact ⟨q', I.rV q' hqR, A1.t0⟩
              · exact ⟨i, I.rV i hiR, A1.t1⟩
              · exact ⟨r, I.rV r hrR, A1.t2⟩)
          A1.told L2 P2
          (by
            intro hex
            have h1 := O.exLt hex i q' r v vq vr hv wq wr hlt
            have h2 := O.anti hex i q'
            linarith)
        have hpre : fwdPre g Vs i v s (some q') = .ok (some (s1, ((3*T+2 : ℕ) : ℤ))) := by
          unfold fwdPre
          rw [deref_ok (by omega), Res.bind_ok, gq _ (I.ids q' hqR), Res.bind_ok, hqn, deref_ok (by omega), Res.bind_ok,
            gr _ (I.ids r hrR), Res.bind_ok, if_pos hlt, hqp, deref_ok (by omega), Res.bind_ok, I.ids q' hqR, I.ids r hrR, hti, htq, a1, Res.bind_ok]
          simp only [Res.pure_eq]
          rw [show (((3*T : ℕ) : ℤ) + 2) = ((3*T+2 : ℕ) : ℤ) by push_cast; ring]
        have hpost : fwdPost (some q') s2 ((σ (3*T+1) : ℕ) : ℤ) = .ok ({ s4 with hull := some i }, some r) := by
          unfold fwdPost
          rw [y2, Res.bind_ok, y1, y3, Res.bind_ok, y4, Res.bind_ok]
          simp only
          rw [show ({ s4 with hull := some i } : St).deref (some q') = s4.deref (some q') from rfl, y5, Res.bind_ok, y6]
          rfl
        rw [I.ids q' hqR, I.ids r hrR, hti, htq, a1, Res.bind_ok]
        simp only
        rw [show (((3*T : ℕ) : ℤ) + 2) = ((3*T+2 : ℕ) : ℤ) by push_cast; ring, f2, Res.bind_ok]
        simp only
        rw [y2, Res.bind_ok, y1, y3, Res.bind_ok, y4, Res.bind_ok]
        simp only
        rw [show ({ s4 with hull := some i } : St).deref (some q') = s4.deref (some q') from rfl, y5, Res.bind_ok, y6]
        have hlen := hperm.length_eq
        simp only [List.length_cons] at hlen
        rcases ih { s4 with hull := some i } (T+1) (i :: r :: l') r I5 (by simp) (by
            show (nd s4 i).next = _
            rw [n5, if_pos rfl]) (by simp only [List.length_cons]; omega) with ⟨s', T', R', z1, z2, z3, z4, z5, z6, z7⟩ | ⟨z1, z2⟩
        · left
          refine ⟨s', T', R', z1, z2, z3, by rw [z4]; exact h5, by simp only [List.length_cons] at z5; omega, .step (q := q') (r := r) ?_ z6,
            .step (nonP_add A1.told A1.t1) hfl Wl (s4 := { s4 with hull := some i }) tr4 z7
              fun W _ _ h1 h2 => walkForwardCt_some W hpre h1 hpost h2⟩
          refine ⟨I, I5, ⟨tr s1, he s1, _, _, _, A1, M1, ?_⟩, hperm.symm.trans (List.Perm.swap _ _ _), hiR, hnext, hqn, hir, ⟨vq, vr, wq, wr, hlt⟩, ?_, ?_⟩
          · show Leg _ _ _ _ _ _ _ (tr s4, he s4)
            rw [tr4, he4]; exact F2
          · show (nd s4 i).next = _
            rw [n5, if_pos rfl]
          · intro x hx
            show (nd s4 x).next = _
            rw [n5, if_neg hx]
        · exact Or.inr ⟨z1, z2⟩
      · right
        rw [addTriangle_full I.shape (by omega)]
        refine ⟨rfl, ?_⟩
        intro hex
        have hcard : V.card ≤ n := by
          have := Finset.card_le_card (s := V) (t := Finset.range n) (fun x hx => Finset.mem_range.mpr (I.Vn x hx))
          simpa using this
        have hcnt := I.cnt
        have hlen := hperm.length_eq
        simp only [List.length_cons] at hlen
        have hl0 : l' = [] := by
          apply List.length_eq_zero_iff.mp; omega
        subst hl0
        have hpos := I.pos hex
        rw [ringSum_perm hperm.symm] at hpos
        unfold ringSum at hpos
        simp only [List.map_cons, List.map_nil, List.sum_cons, List.sum_nil] at hpos
        rw [hnext, hqn, hpath.2.2.1] at hpos
        simp only [Option.getD_some] at hpos
        have h1 := O.exLt hex i q' r v vq vr hv wq wr hlt
        have h2 := O.anti hex i q'
        have h3 := O.anti hex i r
        linarith
    · rw [if_neg hlt]
      exact Or.inl ⟨s, T, R, rfl, I, hiR, rfl, le_refl _, .stop I hiR hnext hqn wq wr (by simpa using hlt), .stop fun W => walkForwardCt_none W (by
        unfold fwdPre
        rw [deref_ok (by omega), Res.bind_ok, gq _ (I.ids q' hqR), Res.bind_ok, hqn, deref_ok (by omega), Res.bind_ok,
          gr _ (I.ids r hrR), Res.bind_ok, if_neg hlt]
        rfl)⟩

/-- triangulator.go:229-235 -/
theorem walkBackward_ok (O : Orc g Vs κ Ex m i0 i1 i2) (hVs : Vs.length = n) (hc : c + 15 = 6*n) {lf : ℕ} (hlf : c < lf)
    {i : ℕ} {v : P} (hv : Vs[i]? = some v) (hps : i ≠ i0 ∧ i ≠ i1 ∧ i ≠ i2) :
    ∀ (fuel : ℕ) (s : St) (T : ℕ) (R : List ℕ) (q : ℕ), RInv κ Ex c n i0 i1 i2 T V R s → i ∈ R → (nd s i).prev = some q → R.length ≤ fuel →
      (∃ s' T' R', walkBackward g Vs lf i v fuel s (some q) = .ok s' ∧ RInv κ Ex c n i0 i1 i2 T' V R' s' ∧ i ∈ R' ∧ s'.hash = s.hash ∧ R'.length ≤ R.length ∧
        Bwd g Vs κ Ex c n i0 i1 i2 V i v T R s T' R' s' ∧
        WalkW n i T T' s s' fun w => walkBackwardCt w g Vs lf i v fuel s (some q)) ∨
      (walkBackward g Vs lf i v fuel s (some q) = .panic ∧ ¬ Ex) := by
  intro fuel
  induction fuel with
  | zero => intro s T R q I _ _ h; have := I.two; omega
  | succ fuel ih =>
    intro s T R q I hiR hprev hfuel
    -- the two predecessors
    obtain ⟨h, l0, hR0, hhull, hp0⟩ := I.ring
    obtain ⟨q', hqR', hq'⟩ := path_prev hp0 (hR0 ▸ hiR)
    have : q' = q := by have := hq'.2; rw [hprev] at this; injection this with this; exact this.symm
    subst this
    rw [← hR0] at hqR'
    have hqn : (nd s q').next = some i := hq'.1
    obtain ⟨w, hwR, hw'⟩ := path_prev hp0 (hR0 ▸ hqR')
    rw [← hR0] at hwR
    have hqR := hqR'
    have hwn : (nd s w).next = some q' := hw'.1
    have hqp : (nd s q').prev = some w := hw'.2
    obtain ⟨l, hperm, hpath⟩ := I.at hwR hwn
    have hnd : (w :: q' :: l).Nodup := hperm.nodup_iff.mpr I.nodup
    have hwq : w ≠ q' := by rintro rfl; simp at hnd
    obtain ⟨lq, hpermq, hpathq⟩ := I.at hqR hqn
    have hiq : i ≠ q' := by
      rintro rfl
      have := hpermq.nodup_iff.mpr I.nodup
      simp at this
    have ilt := I.rlt hiR
    have qlt := I.rlt hqR
    have wlt := I.rlt hwR
    have hnl := I.shape.nl
    obtain ⟨tq, i', htq, hqn', tqlt, tqbd, tqtr, tqnx⟩ := I.own q' hqR
    have : i' = i := by rw [hqn] at hqn'; injection hqn' with hin; exact hin.symm
    subst this
    obtain ⟨tw, q'', htw, hwn', twlt, twbd, twtr, twnx⟩ := I.own w hwR
    have : q'' = q' := by rw [hwn] at hwn'; injection hwn' with hin; exact hin.symm
    subst this
    obtain ⟨vq, wq, mq, gq⟩ := getVs (Vs := Vs) (x := q'') (by omega)
    obtain ⟨vw, ww, mw, gw⟩ := getVs (Vs := Vs) (x := w) (by omega)
    rw [walkBackward, deref_ok (by omega), Res.bind_ok, hqp, deref_ok (by omega), Res.bind_ok, gw _ (I.ids w hwR), Res.bind_ok,
      gq _ (I.ids q'' hqR), Res.bind_ok]
    by_cases hlt : g.areaLt v vw vq = true
    · rw [if_pos hlt]
      have hiw : i' ≠ w := by
        rintro rfl
        rw [hv] at ww; injection ww with ww; subst ww
        rw [O.lt1] at hlt; exact absurd hlt (by simp)
      obtain ⟨l', rfl⟩ : ∃ l', l = i' :: l' := by
        cases l with
        | nil =>
          have := hpath.2.1
          rw [hqn] at this; injection this with this; exact absurd this hiw
        | cons r' l' =>
          have := hpath.2.1.1
          rw [hqn] at this; injection this with this; subst this; exact ⟨l', rfl⟩
      by_cases hcap : 3*(T+1) ≤ c
      · have dz : ∀ {x z : ℕ}, x ≠ z → (x:ℤ) ≠ (z:ℤ) := fun h => by exact_mod_cast h
        have zr : ∀ {x : ℕ}, x < n → (0:ℤ) ≤ x ∧ (x:ℤ) < n := fun h => by omega
        have pb : Port T (tr s) (he s) (tq : ℕ) i' q'' := Or.inr ⟨tq, rfl, tqlt, tqbd, tqtr, tqnx⟩
        have pd : Port T (tr s) (he s) (tw : ℕ) q'' w := Or.inr ⟨tw, rfl, twlt, twbd, twtr, twnx⟩
        obtain ⟨s1, a1, S1, A1, hu1, ha1, no1⟩ := addTriangle_ok I.shape hcap (x0 := w) (x1 := i') (x2 := q'') (a := -1) (b := tq) (d := tw)
          (dz hiw.symm) (dz hiq) (dz hwq.symm) (Or.inl rfl) pb pd
        have M1 := mesh_add I.mesh A1 (zr wlt) (zr ilt) (zr qlt) (dz hiw.symm) (dz hiq) (dz hwq.symm) (Or.inl rfl) pb pd
        obtain ⟨L1, cov1⟩ := walk_pre I (p := i') hwR hqR htw htq S1 A1 M1 hu1 no1
          (by intro k; constructor <;> intro h <;> omega)
          (by right; left; rw [nx_T0]; exact A1.t1)
        have hpa : pv (3*T+2) = 3*T+1 := pv_T2 T
        obtain ⟨s2, σ, f2, L2, P2, F2, fl, hfl, Wl⟩ := legalize_ok hVs hps (O.safe i' (by omega) hps) lf s1 (3*T+2) L1 (by omega) (by rw [hpa]; exact A1.t1)
          (fun h => by rw [hpa, A1.h1] at h; omega) (by have := nonP_card (T+1) i' (tr s1); omega)
        have hfix : σ (3*T) = 3*T := by
          have := P2.fixal
          rw [nx_T2] at this; exact this
        obtain ⟨s3, s4, y1, y2, y3, y4, y5, _, y6, I5, h5, n5', n5, tr4, he4⟩ := walk_post I (b0 := 3*T) hperm hpath no1 ha1 ⟨by omega, by omega⟩ A1.h0 A1.t0
          (by rw [nx_T0]; exact A1.t1)
          (by
            intro k hk hk' hb
            rcases new_slot hk (by omega) with rfl | rfl | rfl
            · rfl
            · have := A1.h1; omega
            · have := A1.h2; omega)
          cov1
          (by
            intro k hk
            by_cases hk' : k < 3*T
            · rw [A1.told k hk']; exact I.tV k hk'
            · rcases new_slot hk hk' with rfl | rfl | rfl
              · exact ⟨w, I.rV w hwR, A1.t0⟩
              · exact ⟨i', I.rV i' hiR, A1.t1⟩
              · exact ⟨q'', I.rV q'' hqR, A1.t2⟩)
          A1.told L2 P2
          (by
            intro hex
            have h1 := O.exLt hex i' w q'' v vw vq hv ww wq hlt
            have h2 := O.anti hex i' q''
            linarith)
        rw [hfix] at y3
        have hpre : bwdPre g Vs i' v s (some q'') = .ok (some (s1, ((3*T : ℕ) : ℤ))) := by
          unfold bwdPre
          rw [deref_ok (by omega), Res.bind_ok, hqp, deref_ok (by omega), Res.bind_ok, gw _ (I.ids w hwR), Res.bind_ok,
            gq _ (I.ids q'' hqR), Res.bind_ok, if_pos hlt, I.ids q'' hqR, I.ids w hwR, htw, htq, a1, Res.bind_ok]
          rfl
        have hpost : bwdPost (some q'') s2 ((3*T : ℕ) : ℤ) = .ok ({ s4 with hull := some w }, some w) := by
          unfold bwdPost
          rw [y2, Res.bind_ok, y1, y3, Res.bind_ok, y4, Res.bind_ok]
          simp only
          rw [show ({ s4 with hull := some w } : St).deref (some q'') = s4.deref (some q'') from rfl, y5, Res.bind_ok, y6]
          rfl
        rw [I.ids q'' hqR, I.ids w hwR, htw, htq, a1, Res.bind_ok]
        simp only
        rw [show (((3*T : ℕ) : ℤ) + 2) = ((3*T+2 : ℕ) : ℤ) by push_cast; ring, f2, Res.bind_ok]
        simp only
        rw [y2, Res.bind_ok, y1, y3, Res.bind_ok, y4, Res.bind_ok]
        simp only
        rw [show ({ s4 with hull := some w } : St).deref (some q'') = s4.deref (some q'') from rfl, y5, Res.bind_ok, y6]
        have hlen := hperm.length_eq
        simp only [List.length_cons] at hlen
        rcases ih { s4 with hull := some w } (T+1) (w :: i' :: l') w I5 (by simp) (by
            show (nd s4 i').prev = _
            rw [n5, if_pos rfl]) (by simp only [List.length_cons]; omega) with ⟨s', T', R', z1, z2, z3, z4, z5, z6, z7⟩ | ⟨z1, z2⟩
        · left
          refine ⟨s', T', R', z1, z2, z3, by rw [z4]; exact h5, by simp only [List.length_cons] at z5; omega, .step (w := w) (q := q'') ?_ z6,
            .step (nonP_add A1.told A1.t1) hfl Wl (s4 := { s4 with hull := some w }) tr4 z7
              fun W _ _ h1 h2 => walkBackwardCt_some W hpre (by rw [show (((3*T : ℕ) : ℤ) + 2) = ((3*T+2 : ℕ) : ℤ) by push_cast; ring]; exact h1) hpost h2⟩
          refine ⟨I, I5, ⟨tr s1, he s1, _, _, _, A1, M1, ?_⟩, hperm.symm.trans (List.Perm.swap _ _ _), hiR, hwn, hqn, hwR, hiw, ⟨vw, vq, ww, wq, hlt⟩, ?_, ?_⟩
          · show Leg _ _ _ _ _ _ _ (tr s4, he s4)
            rw [tr4, he4]; exact F2
          · show (nd s4 w).next = _
            rw [n5', if_pos rfl]
          · intro x hx
            show (nd s4 x).next = _
            rw [n5', if_neg hx]
        · exact Or.inr ⟨z1, z2⟩
      · right
        rw [addTriangle_full I.shape (by omega)]
        refine ⟨rfl, ?_⟩
        intro hex
        have hcard : V.card ≤ n := by
          have := Finset.card_le_card (s := V) (t := Finset.range n) (fun x hx => Finset.mem_range.mpr (I.Vn x hx))
          simpa using this
        have hcnt := I.cnt
        have hlen := hperm.length_eq
        simp only [List.length_cons] at hlen
        have hl0 : l' = [] := by
          apply List.length_eq_zero_iff.mp; omega
        subst hl0
        have hpos := I.pos hex
        rw [ringSum_perm hperm.symm] at hpos
        unfold ringSum at hpos
        simp only [List.map_cons, List.map_nil, List.sum_cons, List.sum_nil] at hpos
        rw [hwn, hqn, hpath.2.2.1] at hpos
        simp only [Option.getD_some] at hpos
        have h1 := O.exLt hex i' w q'' v vw vq hv ww wq hlt
        have h2 := O.anti hex i' q''
        have h3 := O.anti hex i' w
        linarith
    · rw [if_neg hlt]
      exact Or.inl ⟨s, T, R, rfl, I, hiR, rfl, le_refl _, .stop I hiR hqR hwR hqn hwn ww wq (by simpa using hlt), .stop fun W => walkBackwardCt_none W (by
        unfold bwdPre
        rw [deref_ok (by omega), Res.bind_ok, hqp, deref_ok (by omega), Res.bind_ok, gw _ (I.ids w hwR), Res.bind_ok,
          gq _ (I.ids q'' hqR), Res.bind_ok, if_neg hlt]
        rfl)⟩

/-- triangulator.go:196-202 -/
theorem findVisible_ok (hVs : Vs.length = n) {s : St} {T : ℕ} {R : List ℕ} (I : RInv κ Ex c n i0 i1 i2 T V R s) {st : ℕ} (v : P) :
    ∀ (l : List ℕ) (e fuel : ℕ), Path (nd s) e l st → (∀ x ∈ e :: l, x ∈ R) → st ∈ R → st ∉ l → l.length < fuel →
      (findVisible g Vs v (some st) s fuel (some e) = .ok none ∧
        ∀ x ∈ e :: l, ∀ y vx vy, (nd s x).next = some y → Vs[x]? = some vx → Vs[y]? = some vy → g.areaGe v vx vy = true) ∨
      ∃ e' ∈ R, ∃ y ∈ R, (nd s e').next = some y ∧ findVisible g Vs v (some st) s fuel (some e) = .ok (some e') ∧
        (∃ va vb, Vs[e']? = some va ∧ Vs[y]? = some vb ∧ g.areaGe v va vb = false) ∧
        (e' = e ∨ ∃ w vw ve, w ∈ R ∧ (nd s w).next = some e' ∧ Vs[w]? = some vw ∧ Vs[e']? = some ve ∧ g.areaGe v vw ve = true) := by
  intro l
  have uniq : ∀ {e y : ℕ} {va vb : P}, (nd s e).next = some y → Vs[e]? = some va → Vs[y]? = some vb → g.areaGe v va vb = true →
      ∀ y' vx vy, (nd s e).next = some y' → Vs[e]? = some vx → Vs[y']? = some vy → g.areaGe v vx vy = true := by
    intro e y va vb h1 h2 h3 h4 y' vx vy h5 h6 h7
    rw [h1] at h5; injection h5 with h5; subst h5
    rw [h2] at h6; injection h6 with h6; subst h6
    rw [h3] at h7; injection h7 with h7; subst h7
    exact h4
  have step : ∀ (e y fuel : ℕ), e ∈ R → y ∈ R → (nd s e).next = some y → ∃ va vb, Vs[e]? = some va ∧ Vs[y]? = some vb ∧
      findVisible g Vs v (some st) s (fuel+1) (some e) =
        if g.areaGe v va vb = true then if some y = some st then .ok none else findVisible g Vs v (some st) s fuel (some y) else .ok (some e) := by
    intro e y fuel he hy hn
    have elt := I.rlt he
    have ylt := I.rlt hy
    have hnl := I.shape.nl
    obtain ⟨va, wa, ma, ga⟩ := getVs (Vs := Vs) (x := e) (by omega)
    obtain ⟨vb, wb, mb, gb⟩ := getVs (Vs := Vs) (x := y) (by omega)
    refine ⟨va, vb, wa, wb, ?_⟩
    rw [findVisible, deref_ok (by omega), Res.bind_ok, ga _ (I.ids e he), Res.bind_ok, hn, deref_ok (by omega), Res.bind_ok,
      gb _ (I.ids y hy), Res.bind_ok]
    rfl
  induction l with
  | nil =>
    intro e fuel hp hm hst hnst hf
    obtain ⟨f, rfl⟩ : ∃ f, fuel = f + 1 := ⟨fuel - 1, by omega⟩
    obtain ⟨va, vb, wa, wb, hs⟩ := step e st f (hm e (by simp)) hst hp.1
    rw [hs]
    by_cases hg : g.areaGe v va vb = true
    · left; rw [if_pos hg, if_pos rfl]
      refine ⟨rfl, fun x hx => ?_⟩
      rw [List.mem_singleton] at hx; subst hx
      exact uniq hp.1 wa wb hg
    · right; rw [if_neg hg]
      exact ⟨e, hm e (by simp), st, hst, hp.1, rfl, ⟨va, vb, wa, wb, by simpa using hg⟩, Or.inl rfl⟩
  | cons y l ih =>
    intro e fuel hp hm hst hnst hf
    obtain ⟨f, rfl⟩ : ∃ f, fuel = f + 1 := ⟨fuel - 1, by omega⟩
    have hyR := hm y (by simp)
    obtain ⟨va, vb, wa, wb, hs⟩ := step e y f (hm e (by simp)) hyR hp.1.1
    rw [hs]
    by_cases hg : g.areaGe v va vb = true
    · rw [if_pos hg]
      by_cases hy : some y = some st
      · injection hy with hy; subst hy; simp at hnst
      · rw [if_neg hy]
        rcases ih y f hp.2 (fun x hx => hm x (List.mem_cons_of_mem _ hx)) hst (fun h => hnst (List.mem_cons_of_mem _ h))
          (by simp only [List.length_cons] at hf; omega) with ⟨h1, h2⟩ | ⟨e', h1, y', h2, h3, h4, h5, h6⟩
        · refine Or.inl ⟨h1, fun x hx => ?_⟩
          rcases List.mem_cons.mp hx with rfl | hx
          · exact uniq hp.1.1 wa wb hg
          · exact h2 x hx
        · refine Or.inr ⟨e', h1, y', h2, h3, h4, h5, Or.inr ?_⟩
          rcases h6 with rfl | h6
          · exact ⟨e, va, vb, hm e (by simp), hp.1.1, wa, wb, hg⟩
          · exact h6
    · right; rw [if_neg hg]
      exact ⟨e, hm e (by simp), y, hyR, hp.1.1, rfl, ⟨va, vb, wa, wb, by simpa using hg⟩, Or.inl rfl⟩

/-- triangulator.go:183-192 -/
theorem findStart_ok {s : St} {T : ℕ} {R : List ℕ} (I : RInv κ Ex c n i0 i1 i2 T V R s) {x0 : ℕ} (hx0 : x0 ∈ R) :
    ∀ (mm k j : ℕ) (st : Option ℕ), k < s.hash.length → j < mm → s.hash[(k + j) % s.hash.length]? = some (some x0) →
      ∃ x ∈ R, findStart s mm k st = .ok (some x) := by
  intro mm
  induction mm with
  | zero => intro k j st _ h; omega
  | succ mm ih =>
    intro k j st hk hj hl
    have hnl := I.shape.nl
    rw [findStart, goGet_eq (n := k) rfl (by simp [hk] : s.hash[k]? = some s.hash[k]), Res.bind_ok]
    have hmem : s.hash[k] ∈ s.hash := by simp
    have next : (∃ x ∈ R, findStart s mm (if (s.hash.length : ℤ) ≤ (k:ℤ) + 1 then 0 else (k:ℤ) + 1) s.hash[k] = .ok (some x)) ∨ j = 0 := by
      by_cases hj0 : j = 0
      · exact Or.inr hj0
      · left
        by_cases hw : s.hash.length ≤ k + 1
        · rw [if_pos (by omega)]
          have e : (k + j) % s.hash.length = (0 + (j-1)) % s.hash.length := by
            have : k + j = (0 + (j-1)) + s.hash.length := by omega
            rw [this, Nat.add_mod_right]
          exact ih 0 (j-1) s.hash[k] (by omega) (by omega) (by rw [← e]; exact hl)
        · rw [if_neg (by omega)]
          have e : k + j = (k+1) + (j-1) := by omega
          have := ih (k+1) (j-1) s.hash[k] (by omega) (by omega) (by rw [← e]; exact hl)
          rwa [show (((k+1 : ℕ) : ℤ)) = (k:ℤ) + 1 by push_cast; ring] at this
    rcases hh : s.hash[k] with _ | x
    · simp only [Res.pure_eq, Res.bind_ok]
      rw [hh] at next
      rcases next with next | rfl
      · exact next
      · rw [Nat.add_zero, Nat.mod_eq_of_lt hk] at hl
        simp [hk, hh] at hl
    · rw [hh] at hmem next
      rcases I.hash _ hmem with h | ⟨x', hx', h⟩
      · exact absurd h (by simp)
      · injection h with h; subst h
        have xlt := I.Vn x hx'
        simp only
        rw [deref_ok (by omega), Res.bind_ok, Res.pure_eq, Res.bind_ok]
        by_cases hxR : x ∈ R
        · rw [I.ids x hxR, if_pos (by simp)]
          exact ⟨x, hxR, rfl⟩
        · rw [I.dead x hx' hxR, if_neg (by simp)]
          rcases next with next | rfl
          · exact next
          · rw [Nat.add_zero, Nat.mod_eq_of_lt hk] at hl
            simp [hk, hh] at hl
            subst hl
            exact absurd hx0 hxR

/-- replacing the hash table -/
theorem RInv.setHash {s : St} {T : ℕ} {R : List ℕ} (I : RInv κ Ex c n i0 i1 i2 T V R s) (H : List (Option ℕ))
    (hH : ∀ z ∈ H, z = none ∨ ∃ x ∈ V, z = some x) : RInv κ Ex c n i0 i1 i2 T V R { s with hash := H } :=
  ⟨⟨I.shape.tl, I.shape.hl, I.shape.nl, I.shape.len, I.shape.cap⟩, I.mesh, I.ring, I.nodup, I.own, I.cov, I.ids, I.two, I.seed, I.rV, I.Vn, I.tV, I.Vt,
    I.fresh, I.cnt, I.pos, I.dead, hH⟩

/-- triangulator.go:255-257 -/
theorem hashEdge_ok (O : Orc g Vs κ Ex m i0 i1 i2) (hVs : Vs.length = n) {s : St} {T : ℕ} {R : List ℕ}
    (I : RInv κ Ex c n i0 i1 i2 T V R s) (hm : s.hash.length = m) {x : ℕ} (hx : x ∈ R) :
    (∃ s', hashEdge g Vs s (some x) = .ok s' ∧ RInv κ Ex c n i0 i1 i2 T V R s' ∧ s'.hash.length = m ∧ some x ∈ s'.hash ∧ s'.nodes = s.nodes ∧ ∃ H, s' = { s with hash := H }) ∨
    (hashEdge g Vs s (some x) = .panic ∧ ¬ Ex) := by
  have xlt := I.rlt hx
  have hnl := I.shape.nl
  obtain ⟨va, wa, ma, ga⟩ := getVs (Vs := Vs) (x := x) (by omega)
  unfold hashEdge
  rw [deref_ok (by omega), Res.bind_ok, ga _ (I.ids x hx), Res.bind_ok]
  by_cases hk : 0 ≤ g.key va ∧ g.key va < m
  · left
    have hk' : (g.key va).toNat < s.hash.length := by omega
    rw [goSet_eq (n := (g.key va).toNat) (by omega) hk', Res.bind_ok]
    refine ⟨_, rfl, I.setHash _ ?_, by simp [hm], ?_, rfl, _, rfl⟩
    · intro z hz
      rcases List.mem_or_eq_of_mem_set hz with h | h
      · exact I.hash z h
      · exact Or.inr ⟨x, I.rV x hx, h⟩
    · show some x ∈ s.hash.set _ _
      exact List.mem_set hk' _
  · right
    rw [goSet_panic (by omega)]
    exact ⟨rfl, fun hex => hk (O.key hex va ma)⟩

/-- cost of one insertion that takes the number of triangles from `T` to `T'` with at most `F` flips -/
def InsW (n m F T T' : ℕ) (s' : St) (x : Weights → Wk St) : Prop :=
  T ≤ T' ∧ ∃ f ≤ F, ∀ w : Weights, ∃ k ≤ w.start * m + w.visible * n + w.walk * (T' - T + 1) + legBound w n (T' - T) f, (x w).run = .ok (s', k)

/-- triangulator.go:180-240: one insertion keeps the invariant -/
theorem insertPoint_ok (O : Orc g Vs κ Ex m i0 i1 i2) (hVs : Vs.length = n) (hc : c + 15 = 6*n) {fuel : ℕ} (hlf : c < fuel) (hfn : n < fuel)
    {s : St} {T : ℕ} {R : List ℕ} (I : RInv κ Ex c n i0 i1 i2 T V R s) (hm : s.hash.length = m) (hlive : ∃ x ∈ R, some x ∈ s.hash)
    {i : ℕ} {v : P} (hv : Vs[i]? = some v) (hi : i < n) (hiV : i ∉ V) (hps : i ≠ i0 ∧ i ≠ i1 ∧ i ≠ i2) :
    (∃ s' T' V' R', insertPoint g Vs fuel s i v = .ok s' ∧ RInv κ Ex c n i0 i1 i2 T' V' R' s' ∧ s'.hash.length = m ∧
      (∃ x ∈ R', some x ∈ s'.hash) ∧
      ((V' = V ∧ T' = T ∧ R' = R ∧ s' = s ∧
          (∀ x ∈ R, ∀ y vx vy, (nd s x).next = some y → Vs[x]? = some vx → Vs[y]? = some vy → g.areaGe v vx vy = true) ∧
          InsW n m 0 T T' s' fun w => insertPointCt w g Vs fuel s i v) ∨
        (V' = insert i V ∧ Inserted g Vs κ Ex c n i0 i1 i2 V i v T R s T' R' s' ∧
          InsW n m T T T' s' fun w => insertPointCt w g Vs fuel s i v))) ∨
    (insertPoint g Vs fuel s i v = .panic ∧ ¬ Ex) := by
  have hnl := I.shape.nl
  have lenR : ∀ {V' : Finset ℕ} {T' : ℕ} {R' : List ℕ} {s' : St}, RInv κ Ex c n i0 i1 i2 T' V' R' s' → R'.length ≤ n := by
    intro V' T' R' s' I'
    have := Finset.card_le_card (s := R'.toFinset) (t := Finset.range n) (fun x hx => by
      rw [List.mem_toFinset] at hx; exact Finset.mem_range.mpr (I'.rlt hx))
    rwa [List.toFinset_card_of_nodup I'.nodup, Finset.card_range] at this
  unfold insertPoint
  by_cases hk : 0 ≤ g.key v ∧ g.key v < m
  swap
  · right
    have hpan : findStart s s.hash.length (g.key v) none = .panic := by
      obtain ⟨x, _, hx⟩ := hlive
      have hpos : 0 < s.hash.length := List.length_pos_of_mem hx
      obtain ⟨mm, hmm⟩ : ∃ mm, s.hash.length = mm + 1 := ⟨s.hash.length - 1, by omega⟩
      rw [hmm, findStart, goGet_panic (by omega)]
      rfl
    rw [hpan]
    refine ⟨rfl, fun hex => hk (O.key hex v (List.mem_of_getElem? hv))⟩
  obtain ⟨x0, hx0, hx0h⟩ := hlive
  obtain ⟨p0, hp0, hp0'⟩ := List.mem_iff_getElem.mp hx0h
  obtain ⟨x, hxR, hfs⟩ := findStart_ok I hx0 s.hash.length (g.key v).toNat ((p0 + s.hash.length - (g.key v).toNat) % s.hash.length) none (by omega)
    (Nat.mod_lt _ (by omega))
    (by
      have : ((g.key v).toNat + (p0 + s.hash.length - (g.key v).toNat) % s.hash.length) % s.hash.length = p0 := by
        rw [Nat.add_mod_mod]
        have : (g.key v).toNat + (p0 + s.hash.length - (g.key v).toNat) = p0 + s.hash.length := by omega
        rw [this, Nat.add_mod_right, Nat.mod_eq_of_lt hp0]
      rw [this]
      simp [hp0, hp0'])
  rw [show ((g.key v).toNat : ℤ) = g.key v by omega] at hfs
  rw [hfs, Res.bind_ok]
  have xlt := I.rlt hxR
  rw [deref_ok (by omega), Res.bind_ok]
  obtain ⟨h, l0, hR0, hhull, hp⟩ := I.ring
  obtain ⟨st, hstR, hst⟩ := path_prev hp (hR0 ▸ hxR)
  rw [← hR0] at hstR
  rw [hst.2]
  obtain ⟨lst, hpermst, hpst⟩ := rot hp (hR0 ▸ hstR)
  rw [← hR0] at hpermst
  have hRn := lenR I
  have dx : s.deref (some x) = .ok (nd s x) := deref_ok (by omega)
  have costS : ∀ w : Weights, ∃ k ≤ w.start * m, (findStartCt w s s.hash.length (g.key v) none).run = .ok (some x, k) := fun w => by
    obtain ⟨k, ek⟩ := of_erase (x := findStartCt w s s.hash.length (g.key v) none) (by rw [findStartCt_erase]; exact hfs)
    exact ⟨k, hm ▸ findStartCt_cost w s _ _ _ _ k ek, ek⟩
  have hlst : lst.length + 1 ≤ n := by
    have := hpermst.length_eq
    simp only [List.length_cons] at this
    omega
  have costV : ∀ (z : Option ℕ), findVisible g Vs v (some st) s (lst.length+1) (some st) = .ok z → ∀ w : Weights,
      ∃ k ≤ w.visible * n, (findVisibleCt w g Vs v (nd s x).prev s fuel (nd s x).prev).run = .ok (z, k) := fun z hz w => by
    rw [hst.2]
    obtain ⟨k, ek⟩ := of_erase (x := findVisibleCt w g Vs v (some st) s (lst.length+1) (some st)) (by rw [findVisibleCt_erase]; exact hz)
    exact ⟨k, (findVisibleCt_cost w g Vs v _ s _ _ _ k ek).trans (Nat.mul_le_mul_left _ hlst),
      (findVisibleCt_mono w g Vs v (some st) s (f := lst.length+1) (f' := fuel) (by omega) (some st)).ok ek⟩
  simp only
  rcases findVisible_ok (g := g) hVs I (st := st) v lst st (lst.length+1) hpst (fun y hy => hpermst.mem_iff.mp hy) hstR
    (List.nodup_cons.mp (hpermst.nodup_iff.mpr I.nodup)).1 (by omega) with ⟨hf0, hall⟩ | ⟨e, heR, y, hyR, hnext, hf0, ⟨va, vb, wa, wb, hge⟩, hprevE⟩
  · have hf : findVisible g Vs v (some st) s fuel (some st) = .ok none := (findVisible_mono g Vs v (some st) s (by omega) (some st)).ok hf0
    rw [hf, Res.bind_ok]
    refine Or.inl ⟨s, T, V, R, rfl, I, hm, ⟨x0, hx0, hx0h⟩, Or.inl ⟨rfl, rfl, rfl, rfl, fun x hx => hall x (hpermst.mem_iff.mpr hx),
      le_refl _, 0, le_refl _, fun w => ?_⟩⟩
    obtain ⟨kS, hS, eS⟩ := costS w
    obtain ⟨kV, hV, eV⟩ := costV none hf0 w
    exact ⟨kS + kV, by omega, insertPointCt_none w eS dx eV⟩
  · have hf : findVisible g Vs v (some st) s fuel (some st) = .ok (some e) := (findVisible_mono g Vs v (some st) s (by omega) (some st)).ok hf0
    rw [hf, Res.bind_ok]
    simp only
    have elt := I.rlt heR
    have ylt := I.rlt hyR
    rw [deref_ok (by omega), Res.bind_ok, hnext, deref_ok (by omega), Res.bind_ok]
    obtain ⟨s1, s2, s3, s4, s5, r, R5, z1, z2, z3, z4, z5, I5, hi5, hn5, hp5, hh5, hl5, F5, fL, hfL, WL⟩ := first_ok (g := g) I hVs hc hlf hi hiV hps
      (O.safe i (by omega) hps) heR hnext (fun hex => O.exGe hex i e y v va vb hv wa wb hge)
    rw [z1, Res.bind_ok]
    simp only
    rw [z2, Res.bind_ok, z3, Res.bind_ok]
    simp only
    rw [z4, Res.bind_ok]
    simp only
    have hnl5 := I5.shape.nl
    rw [z5, Res.bind_ok, deref_ok (by omega), Res.bind_ok, hn5]
    have finish : ∀ (s6 : St) (T6 : ℕ) (R6 : List ℕ), RInv κ Ex c n i0 i1 i2 T6 (insert i V) R6 s6 → i ∈ R6 → s6.hash = s.hash →
        (∃ s' T' V' R', (do let s ← hashEdge g Vs s6 (some i); let ne ← s.deref (some i); hashEdge g Vs s ne.prev) = Res.ok s' ∧
          RInv κ Ex c n i0 i1 i2 T' V' R' s' ∧ s'.hash.length = m ∧ (∃ x ∈ R', some x ∈ s'.hash) ∧
          V' = insert i V ∧ T' = T6 ∧ R' = R6 ∧ ∃ H, s' = { s6 with hash := H }) ∨
        ((do let s ← hashEdge g Vs s6 (some i); let ne ← s.deref (some i); hashEdge g Vs s ne.prev) = Res.panic ∧ ¬ Ex) := by
      intro s6 T6 R6 I6 hi6 hh6
      rcases hashEdge_ok O hVs I6 (by rw [hh6]; exact hm) hi6 with ⟨s7, e7, I7, hm7, _, hno7, H7, eH7⟩ | ⟨e7, hn⟩
      · rw [e7, Res.bind_ok]
        have hnl7 := I7.shape.nl
        rw [deref_ok (by omega), Res.bind_ok]
        obtain ⟨h7, l7, hR7, _, hp7⟩ := I7.ring
        obtain ⟨q, hq, hq'⟩ := path_prev hp7 (hR7 ▸ hi6)
        rw [← hR7] at hq
        rw [hq'.2]
        rcases hashEdge_ok O hVs I7 hm7 hq with ⟨s8, e8, I8, hm8, hmem8, _, H8, eH8⟩ | ⟨e8, hn⟩
        · exact Or.inl ⟨s8, T6, insert i V, R6, e8, I8, hm8, ⟨q, hq, hmem8⟩, rfl, rfl, rfl, H8, by rw [eH8, eH7]⟩
        · exact Or.inr ⟨e8, hn⟩
      · rw [e7]; exact Or.inr ⟨rfl, hn⟩
    rcases walkForward_ok O hVs hc hlf hv hps fuel s5 (T+1) R5 y I5 hi5 hn5 (by have := lenR I5; omega) with
      ⟨s6, T6, R6, w1, I6, hi6, hh6, hl6, W6, hT6, fF, hfF, WF⟩ | ⟨w1, hn⟩
    · rw [w1, Res.bind_ok]
      have hnl6 := I6.shape.nl
      have cost : ∀ (s7 s8 : St) (T7 fB : ℕ), T6 ≤ T7 → fL + fF + fB ≤ T →
          (∀ w : Weights, ∃ k ≤ w.walk * (T7 - T6 + 1) + legBound w n (T7 - T6) fB,
            (some e = some st ∧ ∃ n6, s6.deref (some i) = .ok n6 ∧ (walkBackwardCt w g Vs fuel i v fuel s6 n6.prev).run = .ok (s7, k)) ∨
              (some e ≠ some st ∧ s7 = s6 ∧ k = 0)) →
          (do let s ← hashEdge g Vs s7 (some i); let ne ← s.deref (some i); hashEdge g Vs s ne.prev) = Res.ok s8 →
          InsW n m T T T7 s8 fun w => insertPointCt w g Vs fuel s i v := by
        intro s7 s8 T7 fB hT7 hfB hB h14
        refine ⟨by omega, fL + fF + fB, hfB, fun w => ?_⟩
        obtain ⟨kS, hS, eS⟩ := costS w
        obtain ⟨kV, hV, eV⟩ := costV _ hf0 w
        obtain ⟨kL, hL, eL⟩ := WL w
        obtain ⟨kF, hF, eF⟩ := WF w
        obtain ⟨kB, hkB, eB⟩ := hB w
        refine ⟨_, ?_, insertPointCt_some w eS dx eV (deref_ok (by omega)) (by rw [hnext]; exact deref_ok (by omega)) z1 z2 z3 eL z5 (deref_ok (by omega))
          (by rw [hn5]; exact eF) (by rw [hst.2]; exact eB) h14⟩
        obtain ⟨d, rfl⟩ : ∃ d, T6 = T + 1 + d := ⟨T6 - (T+1), by omega⟩
        obtain ⟨d', rfl⟩ : ∃ d', T7 = T + 1 + d + d' := ⟨T7 - (T+1+d), by omega⟩
        rw [show T + 1 + d - (T+1) = d by omega] at hF
        rw [show T + 1 + d + d' - (T + 1 + d) = d' by omega] at hkB
        rw [show T + 1 + d + d' - T = d + d' + 1 by omega]
        have e : w.start * m + w.visible * n + w.walk * (d + d' + 1 + 1) + legBound w n (d + d' + 1) (fL + fF + fB) =
            w.start * m + (w.visible * n + (legBound w n 1 fL + ((w.walk * (d + 1) + legBound w n d fF) + (w.walk * (d' + 1) + legBound w n d' fB)))) := by
          unfold legBound; ring
        omega
      have hash6 : s6.hash = s.hash := by rw [hh6, hh5]
      by_cases hwb : some e = some st
      · rw [if_pos (by simpa using hwb)]
        have hnl6 := I6.shape.nl
        rw [deref_ok (by omega), Res.bind_ok]
        obtain ⟨h6, l6, hR6, _, hp6⟩ := I6.ring
        obtain ⟨q, hq, hq'⟩ := path_prev hp6 (hR6 ▸ hi6)
        rw [hq'.2]
        rcases walkBackward_ok O hVs hc hlf hv hps fuel s6 T6 R6 q I6 hi6 hq'.2 (by have := lenR I6; omega) with
          ⟨s7, T7, R7, w2, I7, hi7, hh7, _, W7, hT7, fB, hfB, WB⟩ | ⟨w2, hn⟩
        · rw [w2, Res.bind_ok]
          rcases finish s7 T7 R7 I7 hi7 (by rw [hh7, hash6]) with ⟨s8, _, _, _, f1, f2, f3, f4, rfl, rfl, rfl, H, hH⟩ | hf
          · exact Or.inl ⟨s8, _, _, _, f1, f2, f3, f4, Or.inr ⟨rfl, .mk I wa wb hge F5 I5 W6 (Or.inl W7) hH f2, cost s7 s8 _ fB hT7 (by omega) (fun w => by
              obtain ⟨k, hk, ek⟩ := WB w
              exact ⟨k, hk, Or.inl ⟨hwb, _, deref_ok (by omega), by rw [hq'.2]; exact ek⟩⟩) f1⟩⟩
          · exact Or.inr hf
        · rw [w2]; exact Or.inr ⟨rfl, hn⟩
      · rw [if_neg (by simpa using hwb), Res.pure_eq, Res.bind_ok]
        rcases finish s6 T6 R6 I6 hi6 hash6 with ⟨s8, _, _, _, f1, f2, f3, f4, rfl, rfl, rfl, H, hH⟩ | hf
        · refine Or.inl ⟨s8, _, _, _, f1, f2, f3, f4, Or.inr ⟨rfl, .mk I wa wb hge F5 I5 W6 (Or.inr ⟨rfl, rfl, rfl, ?_⟩) hH f2, cost s6 s8 _ 0 (le_refl _) (by omega)
            (fun w => ⟨0, Nat.zero_le _, Or.inr ⟨hwb, rfl, rfl⟩⟩) f1⟩⟩
          rcases hprevE with rfl | ⟨w, vw, ve, p1, p2, p3, p4, p5⟩
          · exact absurd rfl hwb
          · rw [wa] at p4; injection p4 with p4; subst p4
            exact ⟨w, vw, p1, p2, p3, p5⟩
        · exact Or.inr hf
    · rw [w1]; exact Or.inr ⟨rfl, hn⟩

/-- cost of `len` rounds of the main loop, from `N` inserted points and `T` triangles to `N'` and `T'` -/
def MainW (n m len T T' N N' : ℕ) (s' : St) (x : Weights → Wk St) : Prop :=
  T ≤ T' ∧ ∃ f, f + (N-2)*(N-3) ≤ (N'-2)*(N'-3) ∧
    ∀ w : Weights, ∃ k ≤ (w.main + w.start * m + w.visible * n + w.walk) * len + w.walk * (T' - T) + legBound w n (T' - T) f, (x w).run = .ok (s', k)

theorem MainW.skip {n m len T T' N N' : ℕ} {s' : St} {x y : Weights → Wk St} (h : MainW n m len T T' N N' s' y)
    (hx : ∀ (w : Weights) (k : ℕ), (y w).run = .ok (s', k) → (x w).run = .ok (s', w.main + k)) : MainW n m (len+1) T T' N N' s' x := by
  obtain ⟨hT, f, hf, h⟩ := h
  refine ⟨hT, f, hf, fun w => ?_⟩
  obtain ⟨k, hk, ek⟩ := h w
  refine ⟨_, ?_, hx w k ek⟩
  have : (w.main + w.start * m + w.visible * n + w.walk) * (len+1) = (w.main + w.start * m + w.visible * n + w.walk) * len + (w.main + w.start * m + w.visible * n + w.walk) := by ring
  omega

theorem MainW.ins {n m len T T' T1 N N1 N' F : ℕ} {s' s1 : St} {x y z : Weights → Wk St} (hi : InsW n m F T T1 s1 z) (h : MainW n m len T1 T' N1 N' s' y)
    (hF : F + (N-2)*(N-3) ≤ (N1-2)*(N1-3))
    (hx : ∀ (w : Weights) (k l : ℕ), (z w).run = .ok (s1, k) → (y w).run = .ok (s', l) → (x w).run = .ok (s', w.main + (k + l))) :
    MainW n m (len+1) T T' N N' s' x := by
  obtain ⟨hT, f, hf, h⟩ := h
  obtain ⟨hT1, f1, hf1, h1⟩ := hi
  refine ⟨hT1.trans hT, f1 + f, by omega, fun w => ?_⟩
  obtain ⟨k, hk, ek⟩ := h1 w
  obtain ⟨l, hl, el⟩ := h w
  refine ⟨_, ?_, hx w k l ek el⟩
  obtain ⟨d, rfl⟩ : ∃ d, T1 = T + d := ⟨T1 - T, by omega⟩
  obtain ⟨d', rfl⟩ : ∃ d', T' = T + d + d' := ⟨T' - (T + d), by omega⟩
  rw [show T + d - T = d by omega] at hk
  rw [show T + d + d' - (T + d) = d' by omega] at hl
  rw [show T + d + d' - T = d + d' by omega]
  have : (w.main + w.start * m + w.visible * n + w.walk) * (len+1) + w.walk * (d + d') + legBound w n (d + d') (f1 + f) =
      w.main + ((w.start * m + w.visible * n + w.walk * (d + 1) + legBound w n d f1) +
        ((w.main + w.start * m + w.visible * n + w.walk) * len + w.walk * d' + legBound w n d' f)) := by
    unfold legBound; ring
  omega

/-- triangulator.go:165-241 -/
theorem mainLoop_ok (O : Orc g Vs κ Ex m i0 i1 i2) (hVs : Vs.length = n) (hc : c + 15 = 6*n) {fuel : ℕ} (hlf : c < fuel) (hfn : n < fuel) :
    ∀ (ids : List ℤ) (pp : Option P) (s : St) (T : ℕ) (V : Finset ℕ) (R : List ℕ), RInv κ Ex c n i0 i1 i2 T V R s → s.hash.length = m →
      (∃ x ∈ R, some x ∈ s.hash) → ids.Nodup → (∀ z ∈ ids, ∃ x : ℕ, z = x ∧ x < n ∧ (x ∈ V → x = i0 ∨ x = i1 ∨ x = i2)) →
      (∃ s' T' V' R', mainLoop g Vs fuel i0 i1 i2 ids pp s = .ok s' ∧ RInv κ Ex c n i0 i1 i2 T' V' R' s' ∧
        Run g Vs κ Ex c n i0 i1 i2 ids pp T V R s T' V' R' s' ∧
        MainW n m ids.length T T' V.card V'.card s' fun w => mainLoopCt w g Vs fuel i0 i1 i2 ids pp s) ∨
      (mainLoop g Vs fuel i0 i1 i2 ids pp s = .panic ∧ ¬ Ex) := by
  intro ids
  induction ids with
  | nil => intro pp s T V R I _ _ _ _; exact Or.inl ⟨s, T, V, R, rfl, I, .nil I, le_refl _, 0, by omega, fun w => ⟨0, Nat.zero_le _, rfl⟩⟩
  | cons z ids ih =>
    intro pp s T V R I hm hlive hnd hids
    obtain ⟨x, rfl, hx, hxV⟩ := hids z (by simp)
    obtain ⟨hz, hnd'⟩ := List.nodup_cons.mp hnd
    have hids' : ∀ z ∈ ids, ∃ x : ℕ, z = x ∧ x < n ∧ (x ∈ V → x = i0 ∨ x = i1 ∨ x = i2) := fun z hz => hids z (List.mem_cons_of_mem _ hz)
    obtain ⟨v, wv, mv, gv⟩ := getVs (Vs := Vs) (x := x) (by omega)
    have body : ∀ pp', (∃ s' T' V' R', (if ((x:ℕ):ℤ) = i0 ∨ ((x:ℕ):ℤ) = i1 ∨ ((x:ℕ):ℤ) = i2 then mainLoop g Vs fuel i0 i1 i2 ids pp' s
          else do let s ← insertPoint g Vs fuel s x v; mainLoop g Vs fuel i0 i1 i2 ids pp' s) = Res.ok s' ∧ RInv κ Ex c n i0 i1 i2 T' V' R' s' ∧
          ∀ qq, pp' = some v → Run g Vs κ Ex c n i0 i1 i2 (((x:ℕ):ℤ) :: ids) qq T V R s T' V' R' s' ∧
            ((∀ q, qq = some q → g.near v q = false) →
              MainW n m (ids.length+1) T T' V.card V'.card s' fun w => mainLoopCt w g Vs fuel i0 i1 i2 (((x:ℕ):ℤ) :: ids) qq s)) ∨
        ((if ((x:ℕ):ℤ) = i0 ∨ ((x:ℕ):ℤ) = i1 ∨ ((x:ℕ):ℤ) = i2 then mainLoop g Vs fuel i0 i1 i2 ids pp' s
          else do let s ← insertPoint g Vs fuel s x v; mainLoop g Vs fuel i0 i1 i2 ids pp' s) = Res.panic ∧ ¬ Ex) := by
      intro pp'
      have enter : ∀ (w : Weights) (qq : Option P), (∀ q, qq = some q → g.near v q = false) → ∀ (s' : St) (k : ℕ),
          (if ((x:ℕ):ℤ) = i0 ∨ ((x:ℕ):ℤ) = i1 ∨ ((x:ℕ):ℤ) = i2 then mainLoopCt w g Vs fuel i0 i1 i2 ids (some v) s
            else insertPointCt w g Vs fuel s x v >>= fun s => mainLoopCt w g Vs fuel i0 i1 i2 ids (some v) s).run = .ok (s', k) →
          (mainLoopCt w g Vs fuel i0 i1 i2 (((x:ℕ):ℤ) :: ids) qq s).run = .ok (s', w.main + k) := by
        intro w qq hq s' k h
        rw [mainLoopCt]
        refine run_tick_bind (run_lift_bind (gv _ rfl) ?_)
        cases qq with
        | none => exact h
        | some q =>
          simp only [hq q rfl]
          exact h
      by_cases hs : ((x:ℕ):ℤ) = i0 ∨ ((x:ℕ):ℤ) = i1 ∨ ((x:ℕ):ℤ) = i2
      · simp only [hs, if_true]
        rcases ih pp' s T V R I hm hlive hnd' hids' with ⟨s', T', V', R', e1, e2, e3, e4⟩ | h
        · refine Or.inl ⟨s', T', V', R', e1, e2, fun qq hq => ⟨.seed wv (by exact_mod_cast hs) (hq ▸ e3), fun hnear => ?_⟩⟩
          subst hq
          exact e4.skip fun w k hk => enter w qq hnear s' k (by rw [if_pos hs]; exact hk)
        · exact Or.inr h
      · simp only [hs, if_false]
        have hps : x ≠ i0 ∧ x ≠ i1 ∧ x ≠ i2 := by
          push Not at hs
          exact ⟨by exact_mod_cast hs.1, by exact_mod_cast hs.2.1, by exact_mod_cast hs.2.2⟩
        have hxV' : x ∉ V := fun h => by
          rcases hxV h with h | h | h
          · exact hps.1 h
          · exact hps.2.1 h
          · exact hps.2.2 h
        rcases insertPoint_ok O hVs hc hlf hfn I hm hlive wv hx hxV' hps with ⟨s', T', V', R', e1, I', hm', hl', hV'⟩ | ⟨e1, hn⟩
        · rw [e1, Res.bind_ok]
          have hrest : ∀ z ∈ ids, ∃ y : ℕ, z = y ∧ y < n ∧ (y ∈ V' → y = i0 ∨ y = i1 ∨ y = i2) := by
            intro z hz'
            obtain ⟨y, rfl, hy, hyV⟩ := hids' z hz'
            refine ⟨y, rfl, hy, ?_⟩
            rcases hV' with ⟨rfl, _⟩ | ⟨rfl, _⟩
            · exact hyV
            · intro h
              rcases Finset.mem_insert.mp h with rfl | h
              · exact absurd hz' hz
              · exact hyV h
          rcases ih pp' s' T' V' R' I' hm' hl' hnd' hrest with ⟨s2, T2, V2, R2, f1, f2, f3, f4⟩ | h
          · refine Or.inl ⟨s2, T2, V2, R2, f1, f2, fun qq hq => ?_⟩
            subst hq
            rcases hV' with ⟨rfl, rfl, rfl, rfl, hall, WI⟩ | ⟨rfl, hins, WI⟩
            · exact ⟨.hidden wv I hall f3, fun hnear => .ins WI f4 (by omega) fun w k l hk hl =>
                enter w qq hnear s2 _ (by rw [if_neg hs]; exact run_bind_ok hk hl)⟩
            · refine ⟨.ins wv hxV' hins f3, fun hnear => .ins WI f4 ?_ fun w k l hk hl =>
                enter w qq hnear s2 _ (by rw [if_neg hs]; exact run_bind_ok hk hl)⟩
              rw [Finset.card_insert_of_notMem hxV']
              have h1 := I.cnt
              have h2 := I.two
              obtain ⟨u, hu⟩ : ∃ u, V.card = u + 2 := ⟨V.card - 2, by omega⟩
              rw [hu] at h1 ⊢
              cases u with
              | zero => simp; omega
              | succ u =>
                rw [show u + 1 + 2 - 2 = u + 1 by omega, show u + 1 + 2 - 3 = u by omega, show u + 1 + 2 + 1 - 2 = u + 2 by omega,
                  show u + 1 + 2 + 1 - 3 = u + 1 by omega]
                have : (u+2)*(u+1) = (u+1)*u + (2*u + 2) := by ring
                omega
          · exact Or.inr h
        · rw [e1]; exact Or.inr ⟨rfl, hn⟩
    rw [mainLoop, gv _ rfl, Res.bind_ok]
    cases pp with
    | none =>
      rcases body (some v) with ⟨s', T', V', R', e1, e2, e3⟩ | h
      · left
        exact ⟨s', T', V', R', by simpa using e1, e2, (e3 none rfl).1, (e3 none rfl).2 (by simp)⟩
      · right; simpa using h
    | some q =>
      by_cases hq : g.near v q = true
      · simp only [hq, if_true]
        rcases ih (some q) s T V R I hm hlive hnd' hids' with ⟨s', T', V', R', e1, e2, e3, e4⟩ | h
        · refine Or.inl ⟨s', T', V', R', e1, e2, .near wv hq e3, e4.skip fun w k hk => ?_⟩
          rw [mainLoopCt]
          refine run_tick_bind (run_lift_bind (gv _ rfl) ?_)
          simp only [hq, if_true]
          exact hk
        · exact Or.inr h
      · simp only [hq]
        rcases body (some v) with ⟨s', T', V', R', e1, e2, e3⟩ | h
        · left
          exact ⟨s', T', V', R', by simpa using e1, e2, (e3 (some q) rfl).1, (e3 (some q) rfl).2 fun q' e => by
            injection e with e; subst e; simpa using hq⟩
        · right; simpa using h

/-- `newNode(nodes, i, nil)` -/
theorem newNode_nil {s : St} {i : ℕ} {z : ℤ} (hz : z = i) (hi : i < s.nodes.length) :
    newNode s z none = .ok ({ s with nodes := s.nodes.set i ⟨i, (nd s i).t, some i, some i⟩ }, some i) := by
  subst hz
  unfold newNode
  rw [goGet_eq (n := i) rfl (getD_get (d := Node.zero) hi), Res.bind_ok, Int.toNat_natCast]
  dsimp only
  rw [modNode_ok hi, Res.bind_ok, modNode_ok (by simp [hi]), Res.bind_ok, modNode_ok (by simp [hi]), Res.bind_ok]
  simp only [nd_set hi, if_true, List.set_set]
  congr 3

theorem hashEdge_nd {s : St} {x : ℕ} (hx : x < s.nodes.length) (hi : (nd s x).i = x) (hxV : x < Vs.length) :
    (∃ H, hashEdge g Vs s (some x) = .ok { s with hash := H } ∧ H.length = s.hash.length ∧ some x ∈ H ∧ (∀ z ∈ H, z ∈ s.hash ∨ z = some x)) ∨
    (hashEdge g Vs s (some x) = .panic ∧ ∃ v ∈ Vs, ¬ (0 ≤ g.key v ∧ g.key v < s.hash.length)) := by
  obtain ⟨va, wa, ma, ga⟩ := getVs (Vs := Vs) (x := x) hxV
  unfold hashEdge
  rw [deref_ok hx, Res.bind_ok, ga _ hi, Res.bind_ok]
  by_cases hk : 0 ≤ g.key va ∧ g.key va < s.hash.length
  · left
    have hk' : (g.key va).toNat < s.hash.length := by omega
    rw [goSet_eq (n := (g.key va).toNat) (by omega) hk', Res.bind_ok]
    exact ⟨_, rfl, by simp, List.mem_set hk' _, fun z hz => List.mem_or_eq_of_mem_set hz⟩
  · right
    rw [goSet_panic (by omega)]
    exact ⟨rfl, va, ma, hk⟩

end walks
end Verif.Proofs
