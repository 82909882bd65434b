import Verif.Proofs.Work
/-!
# What the counter counts

For a run of the counted triangulator there are numbers `c` of steps of each kind, independent of the weights: with weights `w` the counter is
`w.call * c.call + ...`. The numbers are tied to the result: the calls of `legalize` are two per flip and one per new triangle.
-/
set_option linter.unusedSimpArgs false

namespace Verif.Proofs
open Verif Verif.Tri2

/-- the counter for weights `w` and numbers of steps `c` -/
def dot (w c : Weights) : ℕ :=
  w.call * c.call + w.flip * c.flip + w.fix * c.fix + w.start * c.start + w.visible * c.visible + w.walk * c.walk + w.main * c.main

/-- numbers of steps of two parts of a run -/
def plus (c d : Weights) : Weights :=
  ⟨c.call + d.call, c.flip + d.flip, c.fix + d.fix, c.start + d.start, c.visible + d.visible, c.walk + d.walk, c.main + d.main⟩

def none0 : Weights := ⟨0, 0, 0, 0, 0, 0, 0⟩

theorem dot_plus (w c d : Weights) : dot w (plus c d) = dot w c + dot w d := by unfold dot plus; ring
theorem dot_none0 (w : Weights) : dot w none0 = 0 := by simp [dot, none0]
theorem plus_none0 (c : Weights) : plus none0 c = c := by simp [plus, none0]

/-- the numbers of steps of a run of `x`, for every choice of weights -/
def Lin {α : Type} (x : Weights → Wk α) (Q : α → Weights → Prop) : Prop :=
  ∀ w0 a k, (x w0).run = .ok (a, k) → ∃ c, Q a c ∧ ∀ w, (x w).run = .ok (a, dot w c)

theorem Lin.mono {α : Type} {x : Weights → Wk α} {Q Q' : α → Weights → Prop} (h : Lin x Q) (h' : ∀ a c, Q a c → Q' a c) : Lin x Q' := by
  intro w0 a k hk
  obtain ⟨c, hc, hw⟩ := h w0 a k hk
  exact ⟨c, h' a c hc, hw⟩

theorem Lin.bind {α β : Type} {x : Weights → Wk α} {f : Weights → α → Wk β} {Q : α → Weights → Prop} {R : β → Weights → Prop} (hx : Lin x Q)
    (hf : ∀ a c, Q a c → Lin (fun w => f w a) fun b d => R b (plus c d)) : Lin (fun w => x w >>= f w) R := by
  intro w0 b m hm
  rw [run_bind] at hm
  obtain ⟨⟨a, k⟩, e1, e2⟩ := Res.bind_eq_ok.mp hm
  obtain ⟨⟨b', l⟩, e3, e4⟩ := Res.bind_eq_ok.mp e2
  simp only [Res.ok.injEq, Prod.mk.injEq] at e4
  obtain ⟨rfl, rfl⟩ := e4
  obtain ⟨c, hc, hw⟩ := hx w0 a k e1
  obtain ⟨d, hd, hw'⟩ := hf a c hc w0 b' l e3
  refine ⟨plus c d, hd, fun w => ?_⟩
  rw [dot_plus]
  exact run_bind_ok (hw w) (hw' w)

theorem Lin.pure {α : Type} {a : α} {Q : α → Weights → Prop} (h : Q a none0) : Lin (fun _ => (pure a : Wk α)) Q := by
  intro w0 b k hk
  have : Res.ok (a, 0) = Res.ok (b, k) := hk
  simp only [Res.ok.injEq, Prod.mk.injEq] at this
  obtain ⟨rfl, rfl⟩ := this
  exact ⟨none0, h, fun w => by rw [dot_none0]; rfl⟩

theorem Lin.lift {α : Type} {x : Res α} {Q : α → Weights → Prop} (h : ∀ a, x = .ok a → Q a none0) : Lin (fun _ => Wk.lift x) Q := by
  intro w0 b k hk
  cases x with
  | ok a =>
    have : Res.ok (a, 0) = Res.ok (b, k) := hk
    simp only [Res.ok.injEq, Prod.mk.injEq] at this
    obtain ⟨rfl, rfl⟩ := this
    exact ⟨none0, h a rfl, fun w => by rw [dot_none0]; rfl⟩
  | panic => exact absurd hk (by rintro ⟨⟩)
  | fuel => exact absurd hk (by rintro ⟨⟩)

theorem Lin.lbind {α β : Type} {x : Res α} {f : Weights → α → Wk β} {R : β → Weights → Prop} (h : ∀ a, x = .ok a → Lin (fun w => f w a) R) :
    Lin (fun w => Wk.lift x >>= f w) R :=
  Lin.bind (Q := fun a c => x = .ok a ∧ c = none0) (Lin.lift fun a ha => ⟨ha, rfl⟩) fun a c hc => by
    obtain ⟨h1, rfl⟩ := hc
    refine (h a h1).mono fun b d hd => ?_
    rwa [plus_none0]

theorem Lin.tick {β : Type} {t : Weights → ℕ} {e : Weights} {f : Weights → Unit → Wk β} {R : β → Weights → Prop} (he : ∀ w, t w = dot w e)
    (h : Lin (fun w => f w ()) fun b d => R b (plus e d)) : Lin (fun w => Wk.tick (t w) >>= f w) R :=
  Lin.bind (Q := fun _ c => c = e) (fun w0 a k _ => ⟨e, rfl, fun w => by rw [← he]; rfl⟩) fun _ c hc => by subst hc; exact h

theorem Lin.ite {α : Type} {c : Prop} [Decidable c] {x y : Weights → Wk α} {Q : α → Weights → Prop} (h1 : c → Lin x Q) (h2 : ¬ c → Lin y Q) :
    Lin (fun w => if c then x w else y w) Q := by
  split
  · exact h1 ‹_›
  · exact h2 ‹_›

theorem Lin.fuel {α : Type} {Q : α → Weights → Prop} : Lin (fun _ => (⟨.fuel⟩ : Wk α)) Q := by
  intro w a k hk; cases hk

/-! ## Uncounted parts and the number of triangles -/

theorem modNode_len {s s' : St} {e : Option ℕ} {f : Node → Node} (h : s.modNode e f = .ok s') : s'.trianglesLen = s.trianglesLen := by
  unfold St.modNode at h
  split at h
  · cases h
  · split at h
    · cases h
    · injection h with h; subst h; rfl

theorem link_len {s s' : St} {a b : ℤ} (h : link s a b = .ok s') : s'.trianglesLen = s.trianglesLen := by
  unfold link at h
  obtain ⟨x, _, h⟩ := Res.bind_eq_ok.mp h
  simp only at h
  split_ifs at h
  · obtain ⟨y, _, h⟩ := Res.bind_eq_ok.mp h
    injection h with h; subst h; rfl
  · obtain ⟨y, _, h⟩ := Res.bind_eq_ok.mp h
    injection h with h; subst h; rfl

theorem addTriangle_len {s s' : St} {x y z a b c t : ℤ} (h : addTriangle s x y z a b c = .ok (s', t)) : s'.trianglesLen = s.trianglesLen + 3 := by
  unfold addTriangle at h
  obtain ⟨_, _, h⟩ := Res.bind_eq_ok.mp h
  obtain ⟨_, _, h⟩ := Res.bind_eq_ok.mp h
  obtain ⟨_, _, h⟩ := Res.bind_eq_ok.mp h
  obtain ⟨s1, h1, h⟩ := Res.bind_eq_ok.mp h
  obtain ⟨s2, h2, h⟩ := Res.bind_eq_ok.mp h
  obtain ⟨s3, h3, h⟩ := Res.bind_eq_ok.mp h
  injection h with h; injection h with h _; subst h
  show s3.trianglesLen + 3 = _
  rw [link_len h3, link_len h2, link_len h1]

theorem remove_len {s s' : St} {e e' : Option ℕ} (h : remove s e = .ok (s', e')) : s'.trianglesLen = s.trianglesLen := by
  unfold remove at h
  obtain ⟨_, _, h⟩ := Res.bind_eq_ok.mp h
  obtain ⟨_, h1, h⟩ := Res.bind_eq_ok.mp h
  obtain ⟨_, _, h⟩ := Res.bind_eq_ok.mp h
  obtain ⟨_, h2, h⟩ := Res.bind_eq_ok.mp h
  obtain ⟨_, h3, h⟩ := Res.bind_eq_ok.mp h
  obtain ⟨_, _, h⟩ := Res.bind_eq_ok.mp h
  injection h with h; injection h with h _; subst h
  rw [modNode_len h3, modNode_len h2, modNode_len h1]

theorem newNode_len {s s' : St} {i : ℤ} {e e' : Option ℕ} (h : newNode s i e = .ok (s', e')) : s'.trianglesLen = s.trianglesLen := by
  unfold newNode at h
  obtain ⟨_, _, h⟩ := Res.bind_eq_ok.mp h
  obtain ⟨_, h0, h⟩ := Res.bind_eq_ok.mp h
  cases e with
  | none =>
    obtain ⟨_, h1, h⟩ := Res.bind_eq_ok.mp h
    obtain ⟨_, h2, h⟩ := Res.bind_eq_ok.mp h
    injection h with h; injection h with h _; subst h
    rw [modNode_len h2, modNode_len h1, modNode_len h0]
  | some e =>
    obtain ⟨_, _, h⟩ := Res.bind_eq_ok.mp h
    obtain ⟨_, h1, h⟩ := Res.bind_eq_ok.mp h
    obtain ⟨_, h2, h⟩ := Res.bind_eq_ok.mp h
    obtain ⟨_, _, h⟩ := Res.bind_eq_ok.mp h
    obtain ⟨_, h3, h⟩ := Res.bind_eq_ok.mp h
    obtain ⟨_, h4, h⟩ := Res.bind_eq_ok.mp h
    injection h with h; injection h with h _; subst h
    rw [modNode_len h4, modNode_len h3, modNode_len h2, modNode_len h1, modNode_len h0]

variable {P : Type}

theorem hashEdge_len {g : Geo P} {Vs : List P} {s s' : St} {e : Option ℕ} (h : hashEdge g Vs s e = .ok s') : s'.trianglesLen = s.trianglesLen := by
  unfold hashEdge at h
  obtain ⟨_, _, h⟩ := Res.bind_eq_ok.mp h
  obtain ⟨_, _, h⟩ := Res.bind_eq_ok.mp h
  obtain ⟨_, _, h⟩ := Res.bind_eq_ok.mp h
  injection h with h; subst h; rfl

theorem fwdPre_len {g : Geo P} {Vs : List P} {i : ℤ} {p : P} {s s' : St} {q : Option ℕ} {a : ℤ} (h : fwdPre g Vs i p s q = .ok (some (s', a))) :
    s'.trianglesLen = s.trianglesLen + 3 := by
  unfold fwdPre at h
  obtain ⟨_, _, h⟩ := Res.bind_eq_ok.mp h
  obtain ⟨_, _, h⟩ := Res.bind_eq_ok.mp h
  obtain ⟨_, _, h⟩ := Res.bind_eq_ok.mp h
  obtain ⟨_, _, h⟩ := Res.bind_eq_ok.mp h
  split_ifs at h
  · obtain ⟨_, _, h⟩ := Res.bind_eq_ok.mp h
    obtain ⟨⟨s1, t⟩, h1, h⟩ := Res.bind_eq_ok.mp h
    injection h with h; injection h with h; injection h with h _; subst h
    exact addTriangle_len h1
  · cases h

theorem bwdPre_len {g : Geo P} {Vs : List P} {i : ℤ} {p : P} {s s' : St} {q : Option ℕ} {a : ℤ} (h : bwdPre g Vs i p s q = .ok (some (s', a))) :
    s'.trianglesLen = s.trianglesLen + 3 := by
  unfold bwdPre at h
  obtain ⟨_, _, h⟩ := Res.bind_eq_ok.mp h
  obtain ⟨_, _, h⟩ := Res.bind_eq_ok.mp h
  obtain ⟨_, _, h⟩ := Res.bind_eq_ok.mp h
  obtain ⟨_, _, h⟩ := Res.bind_eq_ok.mp h
  split_ifs at h
  · obtain ⟨⟨s1, t⟩, h1, h⟩ := Res.bind_eq_ok.mp h
    injection h with h; injection h with h; injection h with h _; subst h
    exact addTriangle_len h1
  · cases h

theorem fwdPost_len {s s' : St} {q q' : Option ℕ} {t : ℤ} (h : fwdPost q s t = .ok (s', q')) : s'.trianglesLen = s.trianglesLen := by
  unfold fwdPost at h
  obtain ⟨_, _, h⟩ := Res.bind_eq_ok.mp h
  obtain ⟨_, h1, h⟩ := Res.bind_eq_ok.mp h
  obtain ⟨⟨s2, _⟩, h2, h⟩ := Res.bind_eq_ok.mp h
  obtain ⟨_, _, h⟩ := Res.bind_eq_ok.mp h
  injection h with h; injection h with h _; subst h
  show s2.trianglesLen = _
  rw [remove_len h2, modNode_len h1]

theorem bwdPost_len {s s' : St} {q q' : Option ℕ} {t : ℤ} (h : bwdPost q s t = .ok (s', q')) : s'.trianglesLen = s.trianglesLen := by
  unfold bwdPost at h
  obtain ⟨_, _, h⟩ := Res.bind_eq_ok.mp h
  obtain ⟨_, h1, h⟩ := Res.bind_eq_ok.mp h
  obtain ⟨⟨s2, _⟩, h2, h⟩ := Res.bind_eq_ok.mp h
  obtain ⟨_, _, h⟩ := Res.bind_eq_ok.mp h
  injection h with h; injection h with h _; subst h
  show s2.trianglesLen = _
  rw [remove_len h2, modNode_len h1]

/-! ## The counts -/

theorem fixHullCt_count (bl a : ℤ) : ∀ (fuel : ℕ) (s : St) (e : Option ℕ), Lin (fun w => fixHullCt w bl a fuel s e) fun s' c =>
    s'.trianglesLen = s.trianglesLen ∧ 1 ≤ c.fix ∧ c = ⟨0, 0, c.fix, 0, 0, 0, 0⟩
  | 0, _, _ => Lin.fuel
  | fuel + 1, s, e => by
    unfold fixHullCt
    simp only [liftM_wk]
    refine Lin.tick (e := ⟨0, 0, 1, 0, 0, 0, 0⟩) (fun w => by simp [dot]) (Lin.lbind fun ne _ => Lin.ite (fun _ => Lin.lift fun s' h => ?_) fun _ =>
      Lin.ite (fun _ => Lin.pure ?_) fun _ => (fixHullCt_count bl a fuel s ne.next).mono fun s' c hc => ?_)
    · exact ⟨modNode_len h, by simp [plus, none0], by simp [plus, none0]⟩
    · exact ⟨rfl, by simp [plus, none0], by simp [plus, none0]⟩
    · refine ⟨hc.1, by simp [plus], ?_⟩
      rw [hc.2.2]; simp [plus]

theorem flipStepCt_count (g : Geo P) (Vs : List P) (s : St) (a : ℤ) : Lin (fun w => flipStepCt w g Vs s a) fun r c =>
    (r.1 = none ∧ c = none0) ∨ ∃ s' br, r.1 = some (s', br) ∧ s'.trianglesLen = s.trianglesLen ∧ c = ⟨0, 1, c.fix, 0, 0, 0, 0⟩ := by
  unfold flipStepCt
  simp only [liftM_wk]
  refine Lin.lbind fun b _ => Lin.ite (fun _ => Lin.pure (Or.inl ⟨rfl, rfl⟩)) fun _ => Lin.lbind fun _ _ => Lin.lbind fun _ _ => Lin.lbind fun _ _ =>
    Lin.lbind fun _ _ => Lin.lbind fun _ _ => Lin.lbind fun _ _ => Lin.lbind fun _ _ => Lin.lbind fun _ _ => Lin.ite (fun _ => ?_) fun _ =>
    Lin.pure (Or.inl ⟨rfl, rfl⟩)
  refine Lin.tick (e := ⟨0, 1, 0, 0, 0, 0, 0⟩) (fun w => by simp [dot]) (Lin.lbind fun _ _ => Lin.lbind fun t _ => Lin.lbind fun _ _ => Lin.ite (fun _ => ?_) fun _ => ?_)
  · refine Lin.bind (fixHullCt_count _ _ _ _ _) fun s' c hc => ?_
    refine Lin.lbind fun _ _ => Lin.lbind fun _ h1 => Lin.lbind fun _ _ => Lin.lbind fun _ h2 => Lin.lbind fun _ h3 => Lin.pure (Or.inr ⟨_, _, rfl, ?_, ?_⟩)
    · rw [link_len h3, link_len h2, link_len h1]; exact hc.1
    · rw [hc.2.2]; simp [plus, none0]
  · simp only [Wk.pure_bind]
    refine Lin.lbind fun _ _ => Lin.lbind fun _ h1 => Lin.lbind fun _ _ => Lin.lbind fun _ h2 => Lin.lbind fun _ h3 => Lin.pure (Or.inr ⟨_, _, rfl, ?_, ?_⟩)
    · rw [link_len h3, link_len h2, link_len h1]
    · simp [plus, none0]

/-- two calls per flip, and the call from outside -/
theorem legalizeCt_count (g : Geo P) (Vs : List P) : ∀ (fuel : ℕ) (s : St) (a : ℤ), Lin (fun w => legalizeCt w g Vs fuel s a) fun x c =>
    x.1.trianglesLen = s.trianglesLen ∧ c = ⟨2 * c.flip + 1, c.flip, c.fix, 0, 0, 0, 0⟩
  | 0, _, _ => Lin.fuel
  | fuel + 1, s, a => by
    simp only [legalizeCt_flip]
    refine Lin.tick (e := ⟨1, 0, 0, 0, 0, 0, 0⟩) (fun w => by simp [dot]) (Lin.bind (flipStepCt_count g Vs s a) fun r c hc => ?_)
    rcases hc with ⟨h1, rfl⟩ | ⟨s', br, h1, h2, h3⟩
    · simp only [h1]
      exact Lin.pure ⟨rfl, by simp [plus, none0]⟩
    · simp only [h1]
      refine Lin.bind (legalizeCt_count g Vs fuel s' a) fun x d hd => (legalizeCt_count g Vs fuel x.1 br).mono fun y e he => ⟨by rw [he.1, hd.1, h2], ?_⟩
      have h4 := hd.2
      have h5 := he.2
      cases c; cases d; cases e
      simp only [plus, Weights.mk.injEq, true_and] at h3 h4 h5 ⊢
      omega

theorem walkForwardCt_count (g : Geo P) (Vs : List P) (lf : ℕ) (i : ℤ) (p : P) : ∀ (fuel : ℕ) (s : St) (q : Option ℕ),
    Lin (fun w => walkForwardCt w g Vs lf i p fuel s q) fun s' c => ∃ d : ℕ, s'.trianglesLen = s.trianglesLen + 3 * d ∧
      c = ⟨2 * c.flip + d, c.flip, c.fix, 0, 0, d + 1, 0⟩
  | 0, _, _ => Lin.fuel
  | fuel + 1, s, q => by
    simp only [walkForwardCt_step]
    refine Lin.tick (e := ⟨0, 0, 0, 0, 0, 1, 0⟩) (fun w => by simp [dot]) (Lin.lbind fun o ho => ?_)
    cases o with
    | none => exact Lin.pure ⟨0, by simp, by simp [plus, none0]⟩
    | some x =>
      obtain ⟨s1, a⟩ := x
      refine Lin.bind (legalizeCt_count g Vs lf s1 a) fun y c hc => Lin.lbind fun z hz => (walkForwardCt_count g Vs lf i p fuel z.1 z.2).mono fun s' e he => ?_
      obtain ⟨d, hd, he⟩ := he
      refine ⟨d + 1, ?_, ?_⟩
      · rw [hd, fwdPost_len hz, hc.1, fwdPre_len ho]; push_cast; ring
      · have h4 := hc.2
        cases c; cases e
        simp only [plus, Weights.mk.injEq, true_and] at h4 he ⊢
        omega

theorem walkBackwardCt_count (g : Geo P) (Vs : List P) (lf : ℕ) (i : ℤ) (p : P) : ∀ (fuel : ℕ) (s : St) (q : Option ℕ),
    Lin (fun w => walkBackwardCt w g Vs lf i p fuel s q) fun s' c => ∃ d : ℕ, s'.trianglesLen = s.trianglesLen + 3 * d ∧
      c = ⟨2 * c.flip + d, c.flip, c.fix, 0, 0, d + 1, 0⟩
  | 0, _, _ => Lin.fuel
  | fuel + 1, s, q => by
    simp only [walkBackwardCt_step]
    refine Lin.tick (e := ⟨0, 0, 0, 0, 0, 1, 0⟩) (fun w => by simp [dot]) (Lin.lbind fun o ho => ?_)
    cases o with
    | none => exact Lin.pure ⟨0, by simp, by simp [plus, none0]⟩
    | some x =>
      obtain ⟨s1, a⟩ := x
      refine Lin.bind (legalizeCt_count g Vs lf s1 (a+2)) fun y c hc => Lin.lbind fun z hz => (walkBackwardCt_count g Vs lf i p fuel z.1 z.2).mono fun s' e he => ?_
      obtain ⟨d, hd, he⟩ := he
      refine ⟨d + 1, ?_, ?_⟩
      · rw [hd, bwdPost_len hz, hc.1, bwdPre_len ho]; push_cast; ring
      · have h4 := hc.2
        cases c; cases e
        simp only [plus, Weights.mk.injEq, true_and] at h4 he ⊢
        omega

theorem findStartCt_count (s : St) : ∀ (m : ℕ) (key : ℤ) (st : Option ℕ), Lin (fun w => findStartCt w s m key st) fun x c =>
    (x = st ∧ c = none0 ∨ 1 ≤ c.start) ∧ c = ⟨0, 0, 0, c.start, 0, 0, 0⟩
  | 0, _, _ => Lin.pure ⟨Or.inl ⟨rfl, rfl⟩, rfl⟩
  | m + 1, key, st => by
    unfold findStartCt
    simp only [liftM_wk]
    refine Lin.tick (e := ⟨0, 0, 0, 1, 0, 0, 0⟩) (fun w => by simp [dot]) (Lin.lbind fun start _ => ?_)
    have go : ∀ live : Bool, Lin (fun w => if live = true then (pure start : Wk (Option ℕ)) else
        findStartCt w s m (if (s.hash.length : ℤ) ≤ key + 1 then 0 else key + 1) start) fun x d =>
          (x = st ∧ plus ⟨0, 0, 0, 1, 0, 0, 0⟩ d = none0 ∨ 1 ≤ (plus ⟨0, 0, 0, 1, 0, 0, 0⟩ d).start) ∧
            plus ⟨0, 0, 0, 1, 0, 0, 0⟩ d = ⟨0, 0, 0, (plus ⟨0, 0, 0, 1, 0, 0, 0⟩ d).start, 0, 0, 0⟩ := fun live =>
      Lin.ite (fun _ => Lin.pure ⟨Or.inr (by simp [plus, none0]), by simp [plus, none0]⟩) fun _ => (findStartCt_count s m _ _).mono fun x d hd => by
        refine ⟨Or.inr (by simp [plus]), ?_⟩
        rw [hd.2]; simp [plus]
    cases start with
    | none => simp only [Wk.pure_bind]; exact go false
    | some x => simp only [Wk.pure_bind]; exact Lin.lbind fun n _ => go _

theorem findVisibleCt_count (g : Geo P) (Vs : List P) (p : P) (st : Option ℕ) (s : St) : ∀ (fuel : ℕ) (e : Option ℕ),
    Lin (fun w => findVisibleCt w g Vs p st s fuel e) fun _ c => 1 ≤ c.visible ∧ c = ⟨0, 0, 0, 0, c.visible, 0, 0⟩
  | 0, _ => Lin.fuel
  | fuel + 1, e => by
    unfold findVisibleCt
    simp only [liftM_wk]
    refine Lin.tick (e := ⟨0, 0, 0, 0, 1, 0, 0⟩) (fun w => by simp [dot]) (Lin.lbind fun _ _ => Lin.lbind fun _ _ => Lin.lbind fun _ _ => Lin.lbind fun _ _ =>
      Lin.ite (fun _ => Lin.ite (fun _ => Lin.pure ?_) fun _ => (findVisibleCt_count g Vs p st s fuel _).mono fun _ c hc => ?_) fun _ => Lin.pure ?_)
    · exact ⟨by simp [plus, none0], by simp [plus, none0]⟩
    · refine ⟨by simp [plus], ?_⟩
      rw [hc.2]; simp [plus]
    · exact ⟨by simp [plus, none0], by simp [plus, none0]⟩

/-- what the numbers of steps of an insertion have to do with the number `d` of new triangles -/
structure InsCount (s s' : St) (c : Weights) (d : ℕ) : Prop where
  len : s'.trianglesLen = s.trianglesLen + 3 * d
  call : c.call = 2 * c.flip + d
  start : 1 ≤ c.start
  visible : 1 ≤ c.visible
  walk : d ≤ c.walk ∧ c.walk ≤ d + 1
  hidden : d = 0 → c.walk = 0 ∧ c.flip = 0
  main : c.main = 0

theorem insertPointCt_count (g : Geo P) (Vs : List P) (fuel : ℕ) (s : St) (i : ℤ) (p : P) : Lin (fun w => insertPointCt w g Vs fuel s i p) fun s' c =>
    ∃ d, InsCount s s' c d := by
  unfold insertPointCt
  simp only [liftM_wk]
  refine Lin.bind (findStartCt_count s _ _ _) fun st c1 h1 => Lin.lbind fun ns hns => Lin.bind (findVisibleCt_count g Vs p _ s fuel _) fun e c2 h2 => ?_
  have h1' : 1 ≤ c1.start := by
    rcases h1.1 with ⟨rfl, _⟩ | h
    · cases hns
    · exact h
  have q1 := h1.2
  have q2 := h2.1
  have q3 := h2.2
  clear h1 h2
  cases c1; cases c2
  simp only [Weights.mk.injEq] at h1' q1 q2 q3
  cases e with
  | none =>
    refine Lin.pure ⟨0, by simp, ?_, ?_, ?_, ?_, ?_, ?_⟩ <;> simp only [plus, none0] <;> omega
  | some e =>
    refine Lin.lbind fun _ _ => Lin.lbind fun _ _ => Lin.lbind fun x hx => Lin.lbind fun _ h7 => Lin.lbind fun y h8 =>
      Lin.bind (legalizeCt_count g Vs fuel _ _) fun z c3 h9 => Lin.lbind fun _ h10 => Lin.lbind fun _ _ => Lin.bind (walkForwardCt_count g Vs fuel i p fuel _ _) fun s6 c4 h12 => ?_
    obtain ⟨d1, l1, e1⟩ := h12
    have l6 : s6.trianglesLen = s.trianglesLen + 3 + 3 * d1 := by
      rw [l1, modNode_len h10, h9.1, newNode_len h8, modNode_len h7, addTriangle_len hx]
    have q4 := h9.2
    cases c3; cases c4
    simp only [Weights.mk.injEq] at q4 e1
    refine Lin.ite (fun _ => ?_) fun _ => ?_
    · refine Lin.lbind fun _ _ => Lin.bind (walkBackwardCt_count g Vs fuel i p fuel _ _) fun s7 c5 h13 => ?_
      obtain ⟨d2, l2, e2⟩ := h13
      cases c5
      simp only [Weights.mk.injEq] at e2
      refine Lin.lbind fun _ h14 => Lin.lbind fun _ _ => Lin.lift fun s' h15 => ⟨1 + d1 + d2, ?_, ?_, ?_, ?_, ?_, ?_, ?_⟩
      · rw [hashEdge_len h15, hashEdge_len h14, l2, l6]; push_cast; ring
      all_goals simp only [plus, none0]; omega
    · simp only [Wk.pure_bind]
      refine Lin.lbind fun _ h14 => Lin.lbind fun _ _ => Lin.lift fun s' h15 => ⟨1 + d1, ?_, ?_, ?_, ?_, ?_, ?_, ?_⟩
      · rw [hashEdge_len h15, hashEdge_len h14, l6]; push_cast; ring
      all_goals simp only [plus, none0]; omega

/-- the same for the main loop -/
structure MainCount (rounds : ℕ) (s s' : St) (c : Weights) (d : ℕ) : Prop where
  len : s'.trianglesLen = s.trianglesLen + 3 * d
  call : c.call = 2 * c.flip + d
  walk : d ≤ c.walk ∧ c.walk ≤ d + c.visible
  main : c.main = rounds

theorem mainLoopCt_count (g : Geo P) (Vs : List P) (fuel : ℕ) (i0 i1 i2 : ℤ) : ∀ (ids : List ℤ) (pp : Option P) (s : St),
    Lin (fun w => mainLoopCt w g Vs fuel i0 i1 i2 ids pp s) fun s' c => ∃ d, MainCount ids.length s s' c d
  | [], _, _ => Lin.pure ⟨0, by simp, by simp [none0], by simp [none0], by simp [none0]⟩
  | i :: ids, pp, s => by
    unfold mainLoopCt
    simp only [liftM_wk]
    refine Lin.tick (e := ⟨0, 0, 0, 0, 0, 0, 1⟩) (fun w => by simp [dot]) (Lin.lbind fun p _ => ?_)
    have skip : ∀ {s' c}, (∃ d, MainCount ids.length s s' c d) → ∃ d, MainCount (i :: ids).length s s' (plus ⟨0, 0, 0, 0, 0, 0, 1⟩ c) d := by
      rintro s' c ⟨d, h⟩
      refine ⟨d, h.len, ?_, ?_, ?_⟩
      · have := h.call; simp only [plus]; omega
      · have := h.walk; simp only [plus]; omega
      · have := h.main; simp only [plus, List.length_cons]; omega
    refine Lin.ite (fun _ => (mainLoopCt_count g Vs fuel i0 i1 i2 ids _ s).mono fun _ _ h => skip h) fun _ =>
      Lin.ite (fun _ => (mainLoopCt_count g Vs fuel i0 i1 i2 ids _ s).mono fun _ _ h => skip h) fun _ =>
        Lin.bind (insertPointCt_count g Vs fuel s i p) fun s1 c h1 => (mainLoopCt_count g Vs fuel i0 i1 i2 ids _ s1).mono fun s' e h => ?_
    obtain ⟨d1, h1⟩ := h1
    obtain ⟨d2, h2⟩ := h
    refine ⟨d1 + d2, ?_, ?_, ?_, ?_⟩
    · rw [h2.len, h1.len]; push_cast; ring
    · have a := h1.call; have b := h2.call; simp only [plus]; omega
    · have a := h1.walk; have b := h2.walk; have c := h1.visible; simp only [plus]; omega
    · have a := h1.main; have b := h2.main; simp only [plus, List.length_cons]; omega

theorem initState_len {g : Geo P} {Vs : List P} {m : ℕ} {i0 i1 i2 : ℤ} {s : St} (h : initState g Vs m i0 i1 i2 = .ok s) : s.trianglesLen = 3 := by
  unfold initState at h
  obtain ⟨⟨s1, e1⟩, h1, h⟩ := Res.bind_eq_ok.mp h
  obtain ⟨s2, h2, h⟩ := Res.bind_eq_ok.mp h
  obtain ⟨s3, h3, h⟩ := Res.bind_eq_ok.mp h
  obtain ⟨⟨s4, e4⟩, h4, h⟩ := Res.bind_eq_ok.mp h
  obtain ⟨s5, h5, h⟩ := Res.bind_eq_ok.mp h
  obtain ⟨s6, h6, h⟩ := Res.bind_eq_ok.mp h
  obtain ⟨⟨s7, e7⟩, h7, h⟩ := Res.bind_eq_ok.mp h
  obtain ⟨s8, h8, h⟩ := Res.bind_eq_ok.mp h
  obtain ⟨s9, h9, h⟩ := Res.bind_eq_ok.mp h
  simp only at h
  split_ifs at h
  obtain ⟨⟨s10, t⟩, h10, h⟩ := Res.bind_eq_ok.mp h
  injection h with h
  subst h
  have e : s9.trianglesLen = 0 := by
    rw [hashEdge_len h9, modNode_len h8, newNode_len h7, hashEdge_len h6, modNode_len h5, newNode_len h4, hashEdge_len h3, modNode_len h2, newNode_len h1]
  rw [addTriangle_len h10]
  simp only [e]
  rfl

/-- numbers of steps of a run that returns `t` triangles -/
structure CoreCount (rounds t : ℕ) (c : Weights) : Prop where
  call : c.call + 1 = t + 2 * c.flip
  walk : t ≤ c.walk + 1 ∧ c.walk + 1 ≤ t + c.visible
  main : c.main = rounds

theorem coreCt_count (g : Geo P) (Vs : List P) (fuel m : ℕ) (i0 i1 i2 : ℤ) (ids : List ℤ) :
    Lin (fun w => triangulateCoreCt w g Vs fuel m i0 i1 i2 ids) fun s c => ∃ t : ℕ, s.trianglesLen = 3 * t ∧ CoreCount ids.length t c := by
  unfold triangulateCoreCt
  simp only [liftM_wk]
  refine Lin.lbind fun s0 h0 => Lin.bind (mainLoopCt_count g Vs fuel i0 i1 i2 ids none s0) fun s c hc => Lin.pure ?_
  obtain ⟨d, h⟩ := hc
  have e := h.len
  rw [initState_len h0] at e
  have h1 := h.call
  have h2 := h.walk
  have h3 := h.main
  refine ⟨d + 1, by simp only; rw [e]; push_cast; ring, ?_, ?_, ?_⟩ <;> simp only [plus, none0] <;> omega

end Verif.Proofs
