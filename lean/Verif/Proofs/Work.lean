import Verif.Model.Work
import Verif.Proofs.Fuel
/-!
# The triangulator with a counter: the same results, and rules for the counter
-/
set_option linter.unusedSimpArgs false

namespace Verif.Proofs
open Verif Verif.Tri2

/-- forget the counter -/
def erase {α : Type} (x : Wk α) : Res α := x.run >>= fun ak => .ok ak.1

@[simp] theorem liftM_wk {α : Type} (x : Res α) : (liftM x : Wk α) = Wk.lift x := rfl

@[simp] theorem erase_bind {α β : Type} (x : Wk α) (f : α → Wk β) : erase (x >>= f) = (erase x >>= fun a => erase (f a)) := by
  show (x.run >>= fun ak => (f ak.1).run >>= fun bl => Res.ok (bl.1, ak.2 + bl.2)) >>= _ = _
  unfold erase
  rcases x.run with ⟨a, k⟩ | _ | _
  · simp only [Res.bind_ok]
    rcases (f a).run with ⟨b, l⟩ | _ | _ <;> rfl
  · rfl
  · rfl

@[simp] theorem erase_lift {α : Type} (x : Res α) : erase (Wk.lift x) = x := by cases x <;> rfl
@[simp] theorem erase_pure {α : Type} (a : α) : erase (pure a : Wk α) = .ok a := rfl
@[simp] theorem erase_tick (k : ℕ) : erase (Wk.tick k) = .ok () := rfl
@[simp] theorem erase_fuel {α : Type} : erase (⟨.fuel⟩ : Wk α) = .fuel := rfl
theorem erase_ite {α : Type} {c : Prop} [Decidable c] (x y : Wk α) : erase (if c then x else y) = if c then erase x else erase y := by
  split <;> rfl

theorem of_erase {α : Type} {x : Wk α} {a : α} (h : erase x = .ok a) : ∃ k, x.run = .ok (a, k) := by
  unfold erase at h
  rcases hx : x.run with ⟨b, k⟩ | _ | _
  · rw [hx] at h
    simp only [Res.bind_ok, Res.ok.injEq] at h
    exact ⟨k, by rw [h]⟩
  · rw [hx] at h; cases h
  · rw [hx] at h; cases h

theorem erase_of {α : Type} {x : Wk α} {a : α} {k : ℕ} (h : x.run = .ok (a, k)) : erase x = .ok a := by
  unfold erase; rw [h]; rfl

/-- the value and the counter of `x` satisfy `Q` -/
def Sat {α : Type} (x : Wk α) (Q : α → ℕ → Prop) : Prop := ∀ a k, x.run = .ok (a, k) → Q a k

theorem run_bind {α β : Type} (x : Wk α) (f : α → Wk β) : (x >>= f).run = (x.run >>= fun ak => (f ak.1).run >>= fun bl => Res.ok (bl.1, ak.2 + bl.2)) := rfl

theorem run_bind_ok {α β : Type} {x : Wk α} {f : α → Wk β} {a : α} {b : β} {k l : ℕ} (h : x.run = .ok (a, k)) (h' : (f a).run = .ok (b, l)) :
    (x >>= f).run = .ok (b, k + l) := by
  rw [run_bind, h, Res.bind_ok, h', Res.bind_ok]

theorem run_lift {α : Type} {x : Res α} {a : α} (h : x = .ok a) : (Wk.lift x).run = .ok (a, 0) := by rw [h]; rfl

theorem lift_ok {α β : Type} (a : α) (f : α → Wk β) : (Wk.lift (.ok a) >>= f) = f a := by
  have : (Wk.lift (.ok a) >>= f).run = (f a).run := by
    rw [run_bind, run_lift rfl, Res.bind_ok]
    rcases (f a).run with ⟨b, l⟩ | _ | _
    · simp
    · rfl
    · rfl
  cases h1 : (Wk.lift (.ok a) >>= f); cases h2 : f a
  rw [h1, h2] at this
  simp only at this; rw [this]

theorem Sat.bind {α β : Type} {x : Wk α} {f : α → Wk β} {Q : α → ℕ → Prop} {Q' : β → ℕ → Prop} (h : Sat x Q)
    (h' : ∀ a k, Q a k → Sat (f a) fun b l => Q' b (k + l)) : Sat (x >>= f) Q' := by
  intro b m hm
  rw [run_bind] at hm
  obtain ⟨⟨a, k⟩, e1, e2⟩ := Res.bind_eq_ok.mp hm
  obtain ⟨⟨b', l⟩, e3, e4⟩ := Res.bind_eq_ok.mp e2
  simp only [Res.ok.injEq, Prod.mk.injEq] at e4
  obtain ⟨rfl, rfl⟩ := e4
  exact h' a k (h a k e1) b' l e3

theorem Sat.lift {α : Type} {x : Res α} {Q : α → ℕ → Prop} (h : ∀ a, x = .ok a → Q a 0) : Sat (Wk.lift x) Q := by
  intro a k hk
  cases x with
  | ok b =>
    have : Res.ok (b, 0) = Res.ok (a, k) := hk
    simp only [Res.ok.injEq, Prod.mk.injEq] at this
    obtain ⟨rfl, rfl⟩ := this
    exact h b rfl
  | panic => exact absurd hk (by rintro ⟨⟩)
  | fuel => exact absurd hk (by rintro ⟨⟩)

theorem Sat.lbind {α β : Type} {x : Res α} {f : α → Wk β} {Q : β → ℕ → Prop} (h : ∀ a, x = .ok a → Sat (f a) Q) : Sat (Wk.lift x >>= f) Q :=
  Sat.bind (Q := fun a k => x = .ok a ∧ k = 0) (Sat.lift fun a ha => ⟨ha, rfl⟩) fun a k hk => by
    obtain ⟨h1, rfl⟩ := hk
    intro b l hl
    rw [Nat.zero_add]; exact h a h1 b l hl

theorem Sat.tick {β : Type} {c : ℕ} {f : Unit → Wk β} {Q : β → ℕ → Prop} (h : Sat (f ()) fun b l => Q b (c + l)) : Sat (Wk.tick c >>= f) Q :=
  Sat.bind (Q := fun _ k => k = c) (fun a k hk => by
    have : Res.ok ((), c) = Res.ok (a, k) := hk
    simp only [Res.ok.injEq, Prod.mk.injEq] at this
    exact this.2.symm) fun a k hk => by subst hk; exact h

theorem Sat.pure {α : Type} {a : α} {Q : α → ℕ → Prop} (h : Q a 0) : Sat (pure a : Wk α) Q := by
  intro b k hk
  have : Res.ok (a, 0) = Res.ok (b, k) := hk
  simp only [Res.ok.injEq, Prod.mk.injEq] at this
  obtain ⟨rfl, rfl⟩ := this
  exact h

theorem Sat.ite {α : Type} {c : Prop} [Decidable c] {x y : Wk α} {Q : α → ℕ → Prop} (h1 : c → Sat x Q) (h2 : ¬ c → Sat y Q) : Sat (if c then x else y) Q := by
  split
  · exact h1 ‹_›
  · exact h2 ‹_›

theorem Sat.fuel {α : Type} {Q : α → ℕ → Prop} : Sat (⟨.fuel⟩ : Wk α) Q := by
  intro a k hk; cases hk

theorem Sat.mono {α : Type} {x : Wk α} {Q Q' : α → ℕ → Prop} (h : Sat x Q) (h' : ∀ a k, Q a k → Q' a k) : Sat x Q' :=
  fun a k hk => h' a k (h a k hk)

/-! ## The same results -/

variable {P : Type} (w : Weights)

theorem fixHullCt_erase (bl a : ℤ) : ∀ (fuel : ℕ) (s : St) (e : Option ℕ), erase (fixHullCt w bl a fuel s e) = fixHull bl a fuel s e
  | 0, _, _ => rfl
  | fuel + 1, s, e => by
    unfold fixHullCt fixHull
    simp only [liftM_wk, erase_bind, erase_tick, erase_lift, Res.bind_ok, erase_ite, erase_pure, fixHullCt_erase bl a fuel, Res.pure_eq]

theorem legalizeCt_erase (g : Geo P) (Vs : List P) : ∀ (fuel : ℕ) (s : St) (a : ℤ), erase (legalizeCt w g Vs fuel s a) = legalize g Vs fuel s a
  | 0, _, _ => rfl
  | fuel + 1, s, a => by
    unfold legalizeCt legalize
    simp only [liftM_wk, erase_bind, erase_tick, erase_lift, Res.bind_ok, erase_ite, erase_pure, fixHullCt_erase, legalizeCt_erase g Vs fuel, Res.pure_eq]

theorem findStartCt_erase (s : St) : ∀ (m : ℕ) (key : ℤ) (st : Option ℕ), erase (findStartCt w s m key st) = findStart s m key st
  | 0, _, _ => rfl
  | m + 1, key, st => by
    unfold findStartCt findStart
    simp only [liftM_wk, erase_bind, erase_tick, erase_lift, Res.bind_ok, erase_ite, erase_pure, findStartCt_erase s m, Res.pure_eq]
    congr 1; funext start
    cases start <;> simp [erase_ite, findStartCt_erase s m]

theorem findVisibleCt_erase (g : Geo P) (Vs : List P) (p : P) (st : Option ℕ) (s : St) : ∀ (fuel : ℕ) (e : Option ℕ),
    erase (findVisibleCt w g Vs p st s fuel e) = findVisible g Vs p st s fuel e
  | 0, _ => rfl
  | fuel + 1, e => by
    unfold findVisibleCt findVisible
    simp only [liftM_wk, erase_bind, erase_tick, erase_lift, Res.bind_ok, erase_ite, erase_pure, findVisibleCt_erase g Vs p st s fuel, Res.pure_eq]

theorem walkForwardCt_erase (g : Geo P) (Vs : List P) (lf : ℕ) (i : ℤ) (p : P) : ∀ (fuel : ℕ) (s : St) (q : Option ℕ),
    erase (walkForwardCt w g Vs lf i p fuel s q) = walkForward g Vs lf i p fuel s q
  | 0, _, _ => rfl
  | fuel + 1, s, q => by
    unfold walkForwardCt walkForward
    simp only [liftM_wk, erase_bind, erase_tick, erase_lift, Res.bind_ok, erase_ite, erase_pure, legalizeCt_erase, walkForwardCt_erase g Vs lf i p fuel,
      Res.pure_eq]

theorem walkBackwardCt_erase (g : Geo P) (Vs : List P) (lf : ℕ) (i : ℤ) (p : P) : ∀ (fuel : ℕ) (s : St) (q : Option ℕ),
    erase (walkBackwardCt w g Vs lf i p fuel s q) = walkBackward g Vs lf i p fuel s q
  | 0, _, _ => rfl
  | fuel + 1, s, q => by
    unfold walkBackwardCt walkBackward
    simp only [liftM_wk, erase_bind, erase_tick, erase_lift, Res.bind_ok, erase_ite, erase_pure, legalizeCt_erase, walkBackwardCt_erase g Vs lf i p fuel,
      Res.pure_eq]

theorem insertPointCt_erase (g : Geo P) (Vs : List P) (fuel : ℕ) (s : St) (i : ℤ) (p : P) :
    erase (insertPointCt w g Vs fuel s i p) = insertPoint g Vs fuel s i p := by
  unfold insertPointCt insertPoint
  simp only [liftM_wk, erase_bind, erase_lift, Res.bind_ok, erase_pure, findStartCt_erase, findVisibleCt_erase, Res.pure_eq]
  congr 1; funext start
  congr 1; funext ns
  congr 1; funext e
  cases e with
  | none => rfl
  | some e =>
    simp only [liftM_wk, erase_bind, erase_lift, Res.bind_ok, erase_pure, erase_ite, legalizeCt_erase, walkForwardCt_erase, walkBackwardCt_erase, Res.pure_eq]

theorem mainLoopCt_erase (g : Geo P) (Vs : List P) (fuel : ℕ) (i0 i1 i2 : ℤ) : ∀ (ids : List ℤ) (pp : Option P) (s : St),
    erase (mainLoopCt w g Vs fuel i0 i1 i2 ids pp s) = mainLoop g Vs fuel i0 i1 i2 ids pp s
  | [], _, _ => rfl
  | i :: ids, pp, s => by
    unfold mainLoopCt mainLoop
    simp only [liftM_wk, erase_bind, erase_tick, erase_lift, Res.bind_ok, erase_ite, insertPointCt_erase, mainLoopCt_erase g Vs fuel i0 i1 i2 ids]
    rfl

theorem coreCt_erase (g : Geo P) (Vs : List P) (fuel m : ℕ) (i0 i1 i2 : ℤ) (ids : List ℤ) :
    erase (triangulateCoreCt w g Vs fuel m i0 i1 i2 ids) = triangulateCore g Vs fuel m i0 i1 i2 ids := by
  unfold triangulateCoreCt triangulateCore
  simp only [liftM_wk, erase_bind, erase_lift, erase_pure, mainLoopCt_erase, Res.pure_eq]

theorem TriangulateCt_erase {F : Type} [_root_.Add F] [_root_.Sub F] [Mul F] [Div F] [LT F] [DecidableLT F] [GoTop F] [LE F] [DecidableLE F]
    [BEq F] [GoAbs F] [GoMinMax F] [GoConst F] [GoTrunc F] [GoOfInt F] [OfNat F 0] [OfNat F 1] [OfNat F 2] [OfNat F 3] [OfNat F 4]
    (srt : (center : R3.Vector F) → List ℤ → List ℤ) (hashSize : ℕ → ℕ) (fuel : ℕ) (Vs : List (R3.Vector F)) :
    erase (TriangulateCt w srt hashSize fuel Vs) = Triangulate srt hashSize fuel Vs := by
  unfold TriangulateCt Triangulate
  simp only [liftM_wk, erase_bind, erase_lift, erase_pure, erase_ite, Res.pure_eq]
  congr 1
  congr 1; funext b
  congr 1; funext p0
  congr 1; funext p1
  split
  · rename_i h
    rw [h]; rfl
  · rename_i h
    rw [h]
    simp only [erase_bind, erase_lift, erase_pure, coreCt_erase]

/-! ## `legalize` -/

theorem fixHullCt_cost (bl a : ℤ) : ∀ (fuel : ℕ) (s : St) (e : Option ℕ), Sat (fixHullCt w bl a fuel s e) fun _ k => k ≤ w.fix * fuel
  | 0, _, _ => Sat.fuel
  | fuel + 1, s, e => by
    unfold fixHullCt
    simp only [liftM_wk]
    refine Sat.tick (Sat.lbind fun ne _ => Sat.ite (fun _ => Sat.lift fun _ _ => ?_) fun _ => Sat.ite (fun _ => Sat.pure ?_) fun _ =>
      (fixHullCt_cost bl a fuel s ne.next).mono fun _ k hk => ?_) <;> rw [Nat.mul_succ] <;> omega

/-- `flipStep` with the counter -/
def flipStepCt (g : Geo P) (Vs : List P) (s : St) (a : ℤ) : Wk (Option (St × ℤ) × ℤ) := do
  let b ← goGet s.halfedges a
  let a0 := a - Int.tmod a 3
  let b0 := b - Int.tmod b 3
  let al := a0 + Int.tmod (a+1) 3
  let ar := a0 + Int.tmod (a+2) 3
  let bl := b0 + Int.tmod (b+2) 3
  if b < 0 then pure (none, ar)
  else do
    let p0 ← goGet s.triangles ar
    let pr ← goGet s.triangles a
    let pl ← goGet s.triangles al
    let p1 ← goGet s.triangles bl
    let v0 ← goGet Vs p0
    let vr ← goGet Vs pr
    let vl ← goGet Vs pl
    let v1 ← goGet Vs p1
    if g.inC v0 vr vl v1 then do
      Wk.tick w.flip
      let t ← goSet s.triangles a p1
      let t ← goSet t b p0
      let s := { s with triangles := t }
      let hbl ← goGet s.halfedges bl
      let s ← if hbl = -1 then fixHullCt w bl a (s.nodes.length + 1) s s.hull else pure s
      let hbl ← goGet s.halfedges bl
      let s ← link s a hbl
      let har ← goGet s.halfedges ar
      let s ← link s b har
      let s ← link s ar bl
      let br := b0 + Int.tmod (b+1) 3
      pure (some (s, br), ar)
    else pure (none, ar)

theorem flipStepCt_erase (g : Geo P) (Vs : List P) (s : St) (a : ℤ) : erase (flipStepCt w g Vs s a) = flipStep g Vs s a := by
  unfold flipStepCt flipStep
  simp only [liftM_wk, erase_bind, erase_tick, erase_lift, Res.bind_ok, erase_ite, erase_pure, fixHullCt_erase, Res.pure_eq]

theorem Wk.ext {α : Type} {x y : Wk α} (h : x.run = y.run) : x = y := by
  cases x; cases y; simp only at h; rw [h]

theorem Wk.assoc {α β γ : Type} (x : Wk α) (f : α → Wk β) (g : β → Wk γ) : (x >>= f) >>= g = x >>= fun a => f a >>= g := by
  apply Wk.ext
  simp only [run_bind]
  rcases x.run with ⟨a, k⟩ | _ | _
  · simp only [Res.bind_ok]
    rcases (f a).run with ⟨b, l⟩ | _ | _
    · simp only [Res.bind_ok]
      rcases (g b).run with ⟨c, m⟩ | _ | _
      · simp only [Res.bind_ok, Nat.add_assoc]
      · rfl
      · rfl
    · rfl
    · rfl
  · rfl
  · rfl

theorem Wk.pure_bind {α β : Type} (a : α) (f : α → Wk β) : (pure a >>= f) = f a := lift_ok a f

theorem Wk.ite_bind {α β : Type} {c : Prop} [Decidable c] (x y : Wk α) (f : α → Wk β) : (if c then x else y) >>= f = if c then x >>= f else y >>= f := by
  split <;> rfl

theorem legalizeCt_flip (g : Geo P) (Vs : List P) (f : ℕ) (s : St) (a : ℤ) : legalizeCt w g Vs (f+1) s a = (Wk.tick w.call >>= fun _ => flipStepCt w g Vs s a >>= fun r =>
    match r.1 with
    | none => pure (s, r.2)
    | some (s', br) => legalizeCt w g Vs f s' a >>= fun x => legalizeCt w g Vs f x.1 br) := by
  conv_lhs => unfold legalizeCt
  unfold flipStepCt
  simp only [Wk.assoc, Wk.ite_bind, Wk.pure_bind]

theorem flipStepCt_cost (g : Geo P) (Vs : List P) (s : St) (a : ℤ) :
    Sat (flipStepCt w g Vs s a) fun r k => (r.1 = none → k = 0) ∧ k ≤ w.flip + w.fix * (s.nodes.length + 1) := by
  unfold flipStepCt
  simp only [liftM_wk]
  refine Sat.lbind fun b _ => Sat.ite (fun _ => Sat.pure ⟨fun _ => rfl, Nat.zero_le _⟩) fun _ => Sat.lbind fun _ _ => Sat.lbind fun _ _ => Sat.lbind fun _ _ =>
    Sat.lbind fun _ _ => Sat.lbind fun _ _ => Sat.lbind fun _ _ => Sat.lbind fun _ _ => Sat.lbind fun _ _ => Sat.ite (fun _ => ?_) fun _ =>
    Sat.pure ⟨fun _ => rfl, Nat.zero_le _⟩
  refine Sat.tick (Sat.lbind fun _ _ => Sat.lbind fun t _ => Sat.lbind fun _ _ => Sat.ite (fun _ => ?_) fun _ => ?_)
  · refine Sat.bind (fixHullCt_cost w _ _ _ _ _) fun s' k hk => ?_
    refine Sat.lbind fun _ _ => Sat.lbind fun _ _ => Sat.lbind fun _ _ => Sat.lbind fun _ _ => Sat.lbind fun _ _ => Sat.pure ⟨fun h => ?_, ?_⟩
    · exact absurd h (by simp)
    · omega
  · rw [Wk.pure_bind]
    refine Sat.lbind fun _ _ => Sat.lbind fun _ _ => Sat.lbind fun _ _ => Sat.lbind fun _ _ => Sat.lbind fun _ _ => Sat.pure ⟨fun h => ?_, ?_⟩
    · exact absurd h (by simp)
    · omega

/-- the counter of one call without flip -/
theorem legalizeCt_none {g : Geo P} {Vs : List P} {f : ℕ} {s : St} {a r : ℤ} (h : flipStep g Vs s a = .ok (none, r)) :
    (legalizeCt w g Vs (f+1) s a).run = .ok ((s, r), w.call) := by
  obtain ⟨k, hk⟩ := of_erase (x := flipStepCt w g Vs s a) (by rw [flipStepCt_erase]; exact h)
  have h0 := (flipStepCt_cost w g Vs s a _ _ hk).1 rfl
  subst h0
  rw [legalizeCt_flip]
  refine run_bind_ok (k := w.call) (l := 0) (a := ()) rfl ?_
  exact run_bind_ok (l := 0) hk rfl

/-- the counter of one call with a flip -/
theorem legalizeCt_some {g : Geo P} {Vs : List P} {f : ℕ} {s s1 s2 s3 : St} {a r br r2 r3 : ℤ} {k2 k3 : ℕ} (h : flipStep g Vs s a = .ok (some (s1, br), r))
    (h2 : (legalizeCt w g Vs f s1 a).run = .ok ((s2, r2), k2)) (h3 : (legalizeCt w g Vs f s2 br).run = .ok ((s3, r3), k3)) :
    ∃ k ≤ w.call + w.flip + w.fix * (s.nodes.length + 1) + k2 + k3, (legalizeCt w g Vs (f+1) s a).run = .ok ((s3, r3), k) := by
  obtain ⟨k, hk⟩ := of_erase (x := flipStepCt w g Vs s a) (by rw [flipStepCt_erase]; exact h)
  have h0 := (flipStepCt_cost w g Vs s a _ _ hk).2
  refine ⟨w.call + (k + (k2 + k3)), by omega, ?_⟩
  rw [legalizeCt_flip]
  refine run_bind_ok (a := ()) rfl ?_
  refine run_bind_ok hk ?_
  exact run_bind_ok h2 h3

/-! ## The walks -/

theorem run_tick_bind {α : Type} {c : ℕ} {f : Unit → Wk α} {b : α} {l : ℕ} (h : (f ()).run = .ok (b, l)) : (Wk.tick c >>= f).run = .ok (b, c + l) :=
  run_bind_ok (a := ()) rfl h

theorem run_lift_bind {α β : Type} {x : Res α} {f : α → Wk β} {a : α} {b : β} {l : ℕ} (h : x = .ok a) (h' : (f a).run = .ok (b, l)) :
    (Wk.lift x >>= f).run = .ok (b, l) := by
  subst h; rw [lift_ok]; exact h'

theorem Wk.lift_bind {α β : Type} (x : Res α) (f : α → Res β) : Wk.lift (x >>= f) = (Wk.lift x >>= fun a => Wk.lift (f a)) := by
  cases x with
  | ok a => rw [lift_ok]; rfl
  | panic => rfl
  | fuel => rfl

theorem Wk.lift_ite {α : Type} {c : Prop} [Decidable c] (x y : Res α) : Wk.lift (if c then x else y) = if c then Wk.lift x else Wk.lift y := by
  split <;> rfl

theorem Wk.lift_pure {α : Type} (a : α) : Wk.lift (pure a) = (pure a : Wk α) := rfl

theorem walkForwardCt_step (g : Geo P) (Vs : List P) (lf : ℕ) (i : ℤ) (p : P) (f : ℕ) (s : St) (q : Option ℕ) :
    walkForwardCt w g Vs lf i p (f+1) s q = (Wk.tick w.walk >>= fun _ => Wk.lift (fwdPre g Vs i p s q) >>= fun o => match o with
      | none => pure s
      | some x => legalizeCt w g Vs lf x.1 x.2 >>= fun y => Wk.lift (fwdPost q y.1 y.2) >>= fun z => walkForwardCt w g Vs lf i p f z.1 z.2) := by
  conv_lhs => unfold walkForwardCt
  unfold fwdPre fwdPost
  simp only [liftM_wk, Wk.lift_bind, Wk.lift_ite, Wk.lift_pure, Wk.assoc, Wk.ite_bind, Wk.pure_bind]

theorem walkForwardCt_none {g : Geo P} {Vs : List P} {lf : ℕ} {i : ℤ} {p : P} {f : ℕ} {s : St} {q : Option ℕ} (h : fwdPre g Vs i p s q = .ok none) :
    (walkForwardCt w g Vs lf i p (f+1) s q).run = .ok (s, w.walk) := by
  rw [walkForwardCt_step]
  exact run_tick_bind (l := 0) (run_lift_bind h rfl)

theorem walkForwardCt_some {g : Geo P} {Vs : List P} {lf : ℕ} {i : ℤ} {p : P} {f : ℕ} {s s1 s2 s3 s4 : St} {q q3 : Option ℕ} {a r : ℤ} {k l : ℕ}
    (h : fwdPre g Vs i p s q = .ok (some (s1, a))) (h2 : (legalizeCt w g Vs lf s1 a).run = .ok ((s2, r), k)) (h3 : fwdPost q s2 r = .ok (s3, q3))
    (h4 : (walkForwardCt w g Vs lf i p f s3 q3).run = .ok (s4, l)) :
    (walkForwardCt w g Vs lf i p (f+1) s q).run = .ok (s4, w.walk + (k + l)) := by
  rw [walkForwardCt_step]
  exact run_tick_bind (run_lift_bind h (run_bind_ok h2 (run_lift_bind h3 h4)))

/-- the part of a round of `walkBackward` before `legalize`: the new state and the new triangle; `none`: the walk ends -/
def bwdPre (g : Geo P) (Vs : List P) (i : ℤ) (p : P) (s : St) (q : Option ℕ) : Res (Option (St × ℤ)) := do
  let nq ← s.deref q
  let np ← s.deref nq.prev
  let a ← goGet Vs np.i
  let b ← goGet Vs nq.i
  if g.areaLt p a b then do
    let (s, t) ← addTriangle s np.i i nq.i (-1) nq.t np.t
    pure (some (s, t))
  else pure none

/-- the part after `legalize` -/
def bwdPost (q : Option ℕ) (s : St) (t : ℤ) : Res (St × Option ℕ) := do
  let nq ← s.deref q
  let s ← s.modNode nq.prev (fun x => { x with t := t })
  let (s, h) ← remove s q
  let s := { s with hull := h }
  let nq ← s.deref q
  pure (s, nq.prev)

theorem walkBackward_step (g : Geo P) (Vs : List P) (lf : ℕ) (i : ℤ) (p : P) (f : ℕ) (s : St) (q : Option ℕ) :
    walkBackward g Vs lf i p (f+1) s q = (bwdPre g Vs i p s q >>= fun o => match o with
      | none => .ok s
      | some x => legalize g Vs lf x.1 (x.2+2) >>= fun y => bwdPost q y.1 x.2 >>= fun z => walkBackward g Vs lf i p f z.1 z.2) := by
  conv_lhs => unfold walkBackward
  unfold bwdPre bwdPost
  simp only [Res.bind_assoc', Res.ite_bind, Res.pure_eq, Res.bind_ok]

theorem walkBackwardCt_step (g : Geo P) (Vs : List P) (lf : ℕ) (i : ℤ) (p : P) (f : ℕ) (s : St) (q : Option ℕ) :
    walkBackwardCt w g Vs lf i p (f+1) s q = (Wk.tick w.walk >>= fun _ => Wk.lift (bwdPre g Vs i p s q) >>= fun o => match o with
      | none => pure s
      | some x => legalizeCt w g Vs lf x.1 (x.2+2) >>= fun y => Wk.lift (bwdPost q y.1 x.2) >>= fun z => walkBackwardCt w g Vs lf i p f z.1 z.2) := by
  conv_lhs => unfold walkBackwardCt
  unfold bwdPre bwdPost
  simp only [liftM_wk, Wk.lift_bind, Wk.lift_ite, Wk.lift_pure, Wk.assoc, Wk.ite_bind, Wk.pure_bind]

theorem walkBackwardCt_none {g : Geo P} {Vs : List P} {lf : ℕ} {i : ℤ} {p : P} {f : ℕ} {s : St} {q : Option ℕ} (h : bwdPre g Vs i p s q = .ok none) :
    (walkBackwardCt w g Vs lf i p (f+1) s q).run = .ok (s, w.walk) := by
  rw [walkBackwardCt_step]
  exact run_tick_bind (l := 0) (run_lift_bind h rfl)

theorem walkBackwardCt_some {g : Geo P} {Vs : List P} {lf : ℕ} {i : ℤ} {p : P} {f : ℕ} {s s1 s2 s3 s4 : St} {q q3 : Option ℕ} {t r : ℤ} {k l : ℕ}
    (h : bwdPre g Vs i p s q = .ok (some (s1, t))) (h2 : (legalizeCt w g Vs lf s1 (t+2)).run = .ok ((s2, r), k)) (h3 : bwdPost q s2 t = .ok (s3, q3))
    (h4 : (walkBackwardCt w g Vs lf i p f s3 q3).run = .ok (s4, l)) :
    (walkBackwardCt w g Vs lf i p (f+1) s q).run = .ok (s4, w.walk + (k + l)) := by
  rw [walkBackwardCt_step]
  exact run_tick_bind (run_lift_bind h (run_bind_ok h2 (run_lift_bind h3 h4)))

/-! ## One insertion -/

theorem findStartCt_cost (s : St) : ∀ (m : ℕ) (key : ℤ) (st : Option ℕ), Sat (findStartCt w s m key st) fun _ k => k ≤ w.start * m
  | 0, _, _ => Sat.pure (Nat.zero_le _)
  | m + 1, key, st => by
    unfold findStartCt
    simp only [liftM_wk]
    refine Sat.tick (Sat.lbind fun start _ => ?_)
    have go : ∀ live : Bool, Sat (if live = true then (pure start : Wk (Option ℕ)) else
        findStartCt w s m (if (s.hash.length : ℤ) ≤ key + 1 then 0 else key + 1) start) fun _ l => w.start + l ≤ w.start * (m + 1) := fun live =>
      Sat.ite (fun _ => Sat.pure (by rw [Nat.mul_succ]; omega)) fun _ => (findStartCt_cost s m _ _).mono fun _ l hl => by rw [Nat.mul_succ]; omega
    cases start with
    | none => simp only [Wk.pure_bind]; exact go false
    | some x => simp only [Wk.pure_bind]; exact Sat.lbind fun n _ => go _

theorem findVisibleCt_cost (g : Geo P) (Vs : List P) (p : P) (st : Option ℕ) (s : St) : ∀ (fuel : ℕ) (e : Option ℕ),
    Sat (findVisibleCt w g Vs p st s fuel e) fun _ k => k ≤ w.visible * fuel
  | 0, _ => Sat.fuel
  | fuel + 1, e => by
    unfold findVisibleCt
    simp only [liftM_wk]
    refine Sat.tick (Sat.lbind fun _ _ => Sat.lbind fun _ _ => Sat.lbind fun _ _ => Sat.lbind fun _ _ => Sat.ite (fun _ => Sat.ite (fun _ => Sat.pure ?_) fun _ =>
      (findVisibleCt_cost g Vs p st s fuel _).mono fun _ l hl => ?_) fun _ => Sat.pure ?_) <;> rw [Nat.mul_succ] <;> omega

theorem findVisibleCt_mono (g : Geo P) (Vs : List P) (p : P) (st : Option ℕ) (s : St) : ∀ {f f' : ℕ}, f ≤ f' → ∀ e,
    FLe (findVisibleCt w g Vs p st s f e).run (findVisibleCt w g Vs p st s f' e).run
  | 0, _, _, _ => .inl rfl
  | f + 1, f', h, e => by
    obtain ⟨f', rfl⟩ : ∃ k, f' = k + 1 := ⟨f' - 1, by omega⟩
    unfold findVisibleCt
    simp only [liftM_wk, run_bind]
    refine FLe.bind FLe.rfl' fun _ => FLe.bind (FLe.bind FLe.rfl' fun ne => FLe.bind (FLe.bind FLe.rfl' fun a => FLe.bind (FLe.bind FLe.rfl' fun nn =>
      FLe.bind (FLe.bind FLe.rfl' fun b => FLe.bind ?_ fun _ => FLe.rfl') fun _ => FLe.rfl') fun _ => FLe.rfl') fun _ => FLe.rfl') fun _ => FLe.rfl'
    split
    · split
      · exact FLe.rfl'
      · exact findVisibleCt_mono g Vs p st s (Nat.le_of_succ_le_succ h) _
    · exact FLe.rfl'

theorem insertPointCt_none {g : Geo P} {Vs : List P} {fuel : ℕ} {s : St} {i : ℤ} {p : P} {st : Option ℕ} {ns : Node} {kS kV : ℕ}
    (h1 : (findStartCt w s s.hash.length (g.key p) none).run = .ok (st, kS)) (h2 : s.deref st = .ok ns)
    (h3 : (findVisibleCt w g Vs p ns.prev s fuel ns.prev).run = .ok (none, kV)) :
    (insertPointCt w g Vs fuel s i p).run = .ok (s, kS + kV) := by
  unfold insertPointCt
  simp only [liftM_wk]
  exact run_bind_ok h1 (run_lift_bind h2 (run_bind_ok (l := 0) h3 rfl))

theorem insertPointCt_some {g : Geo P} {Vs : List P} {fuel : ℕ} {s s1 s2 s3 s4 s5 s6 s7 s' : St} {i t r : ℤ} {p : P} {st e' : Option ℕ} {e : ℕ} {ns ne nn ne' : Node}
    {kS kV kL kF kB : ℕ}
    (h1 : (findStartCt w s s.hash.length (g.key p) none).run = .ok (st, kS)) (h2 : s.deref st = .ok ns)
    (h3 : (findVisibleCt w g Vs p ns.prev s fuel ns.prev).run = .ok (some e, kV))
    (h4 : s.deref (some e) = .ok ne) (h5 : s.deref ne.next = .ok nn) (h6 : addTriangle s ne.i i nn.i (-1) (-1) ne.t = .ok (s1, t))
    (h7 : s1.modNode (some e) (fun x => { x with t := t }) = .ok s2) (h8 : newNode s2 i (some e) = .ok (s3, e'))
    (h9 : (legalizeCt w g Vs fuel s3 (t+2)).run = .ok ((s4, r), kL)) (h10 : s4.modNode e' (fun x => { x with t := r }) = .ok s5)
    (h11 : s5.deref e' = .ok ne') (h12 : (walkForwardCt w g Vs fuel i p fuel s5 ne'.next).run = .ok (s6, kF))
    (h13 : (some e = ns.prev ∧ ∃ n6, s6.deref e' = .ok n6 ∧ (walkBackwardCt w g Vs fuel i p fuel s6 n6.prev).run = .ok (s7, kB)) ∨
      (some e ≠ ns.prev ∧ s7 = s6 ∧ kB = 0))
    (h14 : (do let s ← hashEdge g Vs s7 e'; let ne ← s.deref e'; hashEdge g Vs s ne.prev) = Res.ok s') :
    (insertPointCt w g Vs fuel s i p).run = .ok (s', kS + (kV + (kL + (kF + kB)))) := by
  unfold insertPointCt
  simp only [liftM_wk]
  refine run_bind_ok h1 (run_lift_bind h2 (run_bind_ok h3 ?_))
  simp only
  refine run_lift_bind h4 (run_lift_bind h5 (run_lift_bind h6 (run_lift_bind h7 (run_lift_bind h8 (run_bind_ok h9 (run_lift_bind h10 (run_lift_bind h11
    (run_bind_ok h12 ?_))))))))
  have hend : (Wk.lift (hashEdge g Vs s7 e') >>= fun s => Wk.lift (s.deref e') >>= fun ne => Wk.lift (hashEdge g Vs s ne.prev)).run = .ok (s', 0) := by
    simp only [← Wk.lift_bind]
    exact run_lift h14
  rcases h13 with ⟨he, n6, d6, hb⟩ | ⟨he, rfl, rfl⟩
  · rw [if_pos (by simpa using he)]
    simp only [Wk.assoc]
    exact run_lift_bind d6 (run_bind_ok (l := 0) hb hend)
  · rw [if_neg (by simpa using he)]
    rw [Wk.pure_bind]
    exact hend

end Verif.Proofs
