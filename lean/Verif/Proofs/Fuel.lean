import Verif.Model.Delaunator
/-!
# The outcome of the triangulator does not depend on the fuel

With more fuel a computation that had not run out of fuel has the same outcome. `legalize_endless`: a recursion of
`legalize` that comes back to an earlier state never ends.
-/
namespace Verif.Proofs
open Verif Verif.Tri2

/-- `y` is the outcome `x`, or `x` ran out of fuel -/
def FLe {α : Type} (x y : Res α) : Prop := x = .fuel ∨ x = y

theorem FLe.rfl' {α : Type} {x : Res α} : FLe x x := .inr rfl

theorem FLe.bind {α β : Type} {x y : Res α} {f g : α → Res β} (h : FLe x y) (hf : ∀ a, FLe (f a) (g a)) :
    FLe (x >>= f) (y >>= g) := by
  rcases h with rfl | rfl
  · left; rfl
  · cases x with
    | ok a => exact hf a
    | panic => right; rfl
    | fuel => right; rfl

theorem FLe.ite {α : Type} {c : Prop} [Decidable c] {x y x' y' : Res α} (h : FLe x x') (h' : FLe y y') :
    FLe (if c then x else y) (if c then x' else y') := by
  split
  · exact h
  · exact h'

/-- outcomes that are not `fuel` agree -/
theorem FLe.eq {α : Type} {x y z : Res α} (h : FLe x z) (h' : FLe y z) (hy : y ≠ .fuel) : x = .fuel ∨ x = y := by
  rcases h with h | h
  · exact .inl h
  · rcases h' with h' | h'
    · exact absurd h' hy
    · right; rw [h, h']

variable {P : Type}

/-- the flip made by `legalize` at `a`: the new state and the second half-edge to legalize; `none`: no flip -/
def flipStep (g : Geo P) (Vs : List P) (s : St) (a : ℤ) : Res (Option (St × ℤ) × ℤ) := do
  let b ← goGet s.halfedges a
  let a0 := a - Int.tmod a 3
  let b0 := b - Int.tmod b 3
  let al := a0 + Int.tmod (a+1) 3
  let ar := a0 + Int.tmod (a+2) 3
  let bl := b0 + Int.tmod (b+2) 3
  if b < 0 then pure (none, ar)
  else do
    let p0 ← goGet s.triangles ar
    let pr ← goGet s.triangles a
    let pl ← goGet s.triangles al
    let p1 ← goGet s.triangles bl
    let v0 ← goGet Vs p0
    let vr ← goGet Vs pr
    let vl ← goGet Vs pl
    let v1 ← goGet Vs p1
    if g.inC v0 vr vl v1 then do
      let t ← goSet s.triangles a p1
      let t ← goSet t b p0
      let s := { s with triangles := t }
      let hbl ← goGet s.halfedges bl
      let s ← if hbl = -1 then fixHull bl a (s.nodes.length + 1) s s.hull else pure s
      let hbl ← goGet s.halfedges bl
      let s ← link s a hbl
      let har ← goGet s.halfedges ar
      let s ← link s b har
      let s ← link s ar bl
      let br := b0 + Int.tmod (b+1) 3
      pure (some (s, br), ar)
    else pure (none, ar)

theorem Res.bind_assoc' {α β γ : Type} (x : Res α) (f : α → Res β) (g : β → Res γ) : (x >>= f) >>= g = x >>= fun a => f a >>= g := by
  cases x <;> rfl

theorem Res.ite_bind {α β : Type} {c : Prop} [Decidable c] (x y : Res α) (f : α → Res β) : (if c then x else y) >>= f = if c then x >>= f else y >>= f := by
  split <;> rfl

theorem legalize_flip (g : Geo P) (Vs : List P) (f : ℕ) (s : St) (a : ℤ) : legalize g Vs (f+1) s a = (flipStep g Vs s a >>= fun r =>
    match r.1 with
    | none => .ok (s, r.2)
    | some (s', br) => legalize g Vs f s' a >>= fun x => legalize g Vs f x.1 br) := by
  conv_lhs => unfold legalize
  unfold flipStep
  simp only [Res.bind_assoc', Res.ite_bind, Res.pure_eq, Res.bind_ok]

theorem legalize_mono (g : Geo P) (Vs : List P) {f f' : ℕ} (h : f ≤ f') (s : St) (a : ℤ) : FLe (legalize g Vs f s a) (legalize g Vs f' s a) := by
  induction f generalizing f' s a with
  | zero => exact .inl rfl
  | succ f ih =>
    obtain ⟨f', rfl⟩ : ∃ k, f' = k + 1 := ⟨f' - 1, by omega⟩
    have h' := Nat.le_of_succ_le_succ h
    rw [legalize_flip, legalize_flip]
    refine FLe.bind FLe.rfl' fun r => ?_
    obtain ⟨o, ar⟩ := r
    cases o with
    | none => exact FLe.rfl'
    | some sb => exact FLe.bind (ih h' _ _) fun x => ih h' _ _

theorem findVisible_mono (g : Geo P) (Vs : List P) (p : P) (st : Option ℕ) (s : St) : ∀ {f f' : ℕ}, f ≤ f' → ∀ e, FLe (findVisible g Vs p st s f e) (findVisible g Vs p st s f' e)
  | 0, _, _, _ => .inl rfl
  | f + 1, 0, h, _ => by omega
  | f + 1, f' + 1, h, e => by
    have ih := findVisible_mono g Vs p st s (Nat.le_of_succ_le_succ h)
    unfold findVisible
    repeat first
      | exact FLe.rfl'
      | exact ih _
      | refine FLe.ite ?_ ?_
      | refine FLe.bind ?_ (fun _ => ?_)

theorem walkForward_mono (g : Geo P) (Vs : List P) {lf lf' : ℕ} (hl : lf ≤ lf') (i : ℤ) (p : P) : ∀ {f f' : ℕ}, f ≤ f' → ∀ s q,
    FLe (walkForward g Vs lf i p f s q) (walkForward g Vs lf' i p f' s q)
  | 0, _, _, _, _ => .inl rfl
  | f + 1, 0, h, _, _ => by omega
  | f + 1, f' + 1, h, s, q => by
    have ih := walkForward_mono g Vs hl i p (Nat.le_of_succ_le_succ h)
    unfold walkForward
    repeat first
      | exact FLe.rfl'
      | exact ih _ _
      | exact legalize_mono g Vs hl _ _
      | refine FLe.ite ?_ ?_
      | refine FLe.bind ?_ (fun _ => ?_)

theorem walkBackward_mono (g : Geo P) (Vs : List P) {lf lf' : ℕ} (hl : lf ≤ lf') (i : ℤ) (p : P) : ∀ {f f' : ℕ}, f ≤ f' → ∀ s q,
    FLe (walkBackward g Vs lf i p f s q) (walkBackward g Vs lf' i p f' s q)
  | 0, _, _, _, _ => .inl rfl
  | f + 1, 0, h, _, _ => by omega
  | f + 1, f' + 1, h, s, q => by
    have ih := walkBackward_mono g Vs hl i p (Nat.le_of_succ_le_succ h)
    unfold walkBackward
    repeat first
      | exact FLe.rfl'
      | exact ih _ _
      | exact legalize_mono g Vs hl _ _
      | refine FLe.ite ?_ ?_
      | refine FLe.bind ?_ (fun _ => ?_)

theorem insertPoint_mono (g : Geo P) (Vs : List P) {f f' : ℕ} (h : f ≤ f') (s : St) (i : ℤ) (p : P) :
    FLe (insertPoint g Vs f s i p) (insertPoint g Vs f' s i p) := by
  unfold insertPoint
  refine FLe.bind FLe.rfl' fun start => FLe.bind FLe.rfl' fun ns => FLe.bind (findVisible_mono g Vs p _ s h _) fun e => ?_
  cases e with
  | none => exact FLe.rfl'
  | some e =>
    repeat first
      | exact FLe.rfl'
      | exact legalize_mono g Vs h _ _
      | exact walkForward_mono g Vs h _ _ h _ _
      | exact walkBackward_mono g Vs h _ _ h _ _
      | refine FLe.ite ?_ ?_
      | refine FLe.bind ?_ (fun _ => ?_)

theorem mainLoop_mono (g : Geo P) (Vs : List P) {f f' : ℕ} (h : f ≤ f') (i0 i1 i2 : ℤ) : ∀ ids pp s,
    FLe (mainLoop g Vs f i0 i1 i2 ids pp s) (mainLoop g Vs f' i0 i1 i2 ids pp s)
  | [], _, _ => FLe.rfl'
  | i :: ids, pp, s => by
    have ih := mainLoop_mono g Vs h i0 i1 i2 ids
    unfold mainLoop
    repeat first
      | exact FLe.rfl'
      | exact ih _ _
      | exact insertPoint_mono g Vs h _ _ _
      | refine FLe.ite ?_ ?_
      | refine FLe.bind ?_ (fun _ => ?_)

theorem core_mono (g : Geo P) (Vs : List P) {f f' : ℕ} (h : f ≤ f') (m : ℕ) (i0 i1 i2 : ℤ) (ids : List ℤ) :
    FLe (triangulateCore g Vs f m i0 i1 i2 ids) (triangulateCore g Vs f' m i0 i1 i2 ids) := by
  unfold triangulateCore
  exact FLe.bind FLe.rfl' fun _ => FLe.bind (mainLoop_mono g Vs h _ _ _ _ _ _) fun _ => FLe.rfl'

theorem hullWalk_mono (Vs : List P) (s : St) : ∀ {f f' : ℕ}, f ≤ f' → ∀ e acc, FLe (hullWalk Vs s f e acc) (hullWalk Vs s f' e acc)
  | 0, _, _, _, _ => .inl rfl
  | f + 1, 0, h, _, _ => by omega
  | f + 1, f' + 1, h, e, acc => by
    have ih := hullWalk_mono Vs s (Nat.le_of_succ_le_succ h)
    unfold hullWalk
    cases e with
    | none => exact FLe.rfl'
    | some e =>
      repeat first
        | exact FLe.rfl'
        | exact ih _ _
        | refine FLe.ite ?_ ?_
        | refine FLe.bind ?_ (fun _ => ?_)

/-! ## A recursion of `legalize` that never ends -/

/-- what `legalize` calls next, after `k` levels of fuel for the first recursive call -/
def nextCall (g : Geo P) (Vs : List P) (N : ℕ) (x : St × ℤ) : Option (St × ℤ) :=
  match flipStep g Vs x.1 x.2 with
  | .ok (some (s', br), _) =>
    match legalize g Vs N s' x.2 with
    | .ok y => some (y.1, br)
    | _ => some (s', x.2)
  | _ => none

/-- a family of calls each of which leads to a further call of the family never ends -/
theorem legalize_endless (g : Geo P) (Vs : List P) (N : ℕ) (S : St × ℤ → Prop) (h : ∀ x, S x → ∃ y, nextCall g Vs N x = some y ∧ S y) :
    ∀ f x, S x → legalize g Vs f x.1 x.2 = .fuel := by
  intro f
  induction f with
  | zero => intro x _; rfl
  | succ f ih =>
    intro x hx
    obtain ⟨y, hy, hS⟩ := h x hx
    rw [legalize_flip]
    unfold nextCall at hy
    cases hfl : flipStep g Vs x.1 x.2 with
    | panic => rw [hfl] at hy; cases hy
    | fuel => rfl
    | ok r =>
      obtain ⟨o, ar⟩ := r
      cases o with
      | none => rw [hfl] at hy; cases hy
      | some sb =>
        obtain ⟨s', br⟩ := sb
        rw [hfl] at hy
        simp only [Res.bind_ok] at hy ⊢
        cases hl : legalize g Vs N s' x.2 with
        | ok z =>
          rw [hl] at hy
          simp only [Option.some.injEq] at hy
          subst hy
          have := (legalize_mono g Vs (le_max_left f N) s' x.2).eq (legalize_mono g Vs (le_max_right f N) s' x.2) (by rw [hl]; exact fun h => by cases h)
          rcases this with h | h
          · rw [h]; rfl
          · rw [h, hl]
            exact ih _ hS
        | panic =>
          rw [hl] at hy
          simp only [Option.some.injEq] at hy
          subst hy
          rw [ih _ hS]; rfl
        | fuel =>
          rw [hl] at hy
          simp only [Option.some.injEq] at hy
          subst hy
          rw [ih _ hS]; rfl

/-- the calls reached from `x` -/
def calls (g : Geo P) (Vs : List P) (N : ℕ) : ℕ → St × ℤ → Option (St × ℤ)
  | 0, x => some x
  | k + 1, x => (nextCall g Vs N x).bind (calls g Vs N k)

theorem calls_succ (g : Geo P) (Vs : List P) (N : ℕ) : ∀ k x, calls g Vs N (k+1) x = (calls g Vs N k x).bind (nextCall g Vs N)
  | 0, x => by simp [calls]
  | k + 1, x => by
    rw [calls]
    conv_rhs => rw [calls]
    cases h : nextCall g Vs N x with
    | none => rfl
    | some y => simp only [Option.bind_some]; exact calls_succ g Vs N k y

/-- the call at `x` comes to a call that comes back to itself -/
theorem legalize_cycle (g : Geo P) (Vs : List P) (N : ℕ) {x : St × ℤ} {j k : ℕ} (hk : j < k)
    (h : (calls g Vs N j x).isSome) (he : calls g Vs N j x = calls g Vs N k x) (f : ℕ) : legalize g Vs f x.1 x.2 = .fuel := by
  have hpre : ∀ i ≤ k, (calls g Vs N i x).isSome := by
    have hks : (calls g Vs N k x).isSome := he ▸ h
    intro i hi
    obtain ⟨d, rfl⟩ := Nat.exists_eq_add_of_le hi
    clear he hk h hi
    induction d with
    | zero => exact hks
    | succ d ihd =>
      apply ihd
      rw [← Nat.add_assoc, calls_succ] at hks
      cases hc : calls g Vs N (i + d) x with
      | none => rw [hc] at hks; simp at hks
      | some _ => rfl
  refine legalize_endless g Vs N (fun y => ∃ i < k, calls g Vs N i x = some y) ?_ f x ⟨0, by omega, rfl⟩
  rintro y ⟨i, hi, hy⟩
  have h1 := hpre (i+1) hi
  rw [calls_succ, hy, Option.bind_some] at h1
  obtain ⟨z, hz⟩ := Option.isSome_iff_exists.mp h1
  refine ⟨z, hz, ?_⟩
  have e : calls g Vs N (i+1) x = some z := by rw [calls_succ, hy]; exact hz
  rcases Nat.lt_or_ge (i+1) k with hlt | hge
  · exact ⟨i+1, hlt, e⟩
  · have : i + 1 = k := by omega
    exact ⟨j, hk, by rw [he, ← this]; exact e⟩

/-! ## One round of the forward walk -/

/-- the part of a round of `walkForward` before `legalize`: the new state and its argument; `none`: the walk ends -/
def fwdPre (g : Geo P) (Vs : List P) (i : ℤ) (p : P) (s : St) (q : Option ℕ) : Res (Option (St × ℤ)) := do
  let nq ← s.deref q
  let a ← goGet Vs nq.i
  let nn ← s.deref nq.next
  let b ← goGet Vs nn.i
  if g.areaLt p a b then do
    let np ← s.deref nq.prev
    let (s, t) ← addTriangle s nq.i i nn.i np.t (-1) nq.t
    pure (some (s, t+2))
  else pure none

/-- the part after `legalize` -/
def fwdPost (q : Option ℕ) (s : St) (r : ℤ) : Res (St × Option ℕ) := do
  let nq ← s.deref q
  let s ← s.modNode nq.prev (fun x => { x with t := r })
  let (s, h) ← remove s q
  let s := { s with hull := h }
  let nq ← s.deref q
  pure (s, nq.next)

theorem walkForward_step (g : Geo P) (Vs : List P) (lf : ℕ) (i : ℤ) (p : P) (f : ℕ) (s : St) (q : Option ℕ) :
    walkForward g Vs lf i p (f+1) s q = (fwdPre g Vs i p s q >>= fun o => match o with
      | none => .ok s
      | some x => legalize g Vs lf x.1 x.2 >>= fun y => fwdPost q y.1 y.2 >>= fun z => walkForward g Vs lf i p f z.1 z.2) := by
  conv_lhs => unfold walkForward
  unfold fwdPre fwdPost
  simp only [Res.bind_assoc', Res.ite_bind, Res.pure_eq, Res.bind_ok]

/-! ## One insertion -/

/-- the part of `insertPoint` before `legalize`: the new state, the new node, the argument of `legalize` and `walkBack`; `none`: the point is
skipped -/
def insPre (g : Geo P) (Vs : List P) (fuel : ℕ) (s : St) (i : ℤ) (p : P) : Res (Option (St × Option ℕ × ℤ × Bool)) := do
  let start ← findStart s s.hash.length (g.key p) none
  let ns ← s.deref start
  let start := ns.prev
  let e ← findVisible g Vs p start s fuel start
  match e with
  | none => pure none
  | some _ => do
    let walkBack := decide (e = start)
    let ne ← s.deref e
    let nn ← s.deref ne.next
    let (s, t) ← addTriangle s ne.i i nn.i (-1) (-1) ne.t
    let s ← s.modNode e (fun x => { x with t := t })
    let (s, e) ← newNode s i e
    pure (some (s, e, t+2, walkBack))

/-- between `legalize` and the forward walk -/
def insMid (e : Option ℕ) (s : St) (r : ℤ) : Res (St × Option ℕ) := do
  let s ← s.modNode e (fun x => { x with t := r })
  let ne ← s.deref e
  pure (s, ne.next)

/-- after the forward walk -/
def insEnd (g : Geo P) (Vs : List P) (fuel : ℕ) (i : ℤ) (p : P) (e : Option ℕ) (walkBack : Bool) (s : St) : Res St := do
  let s ← if walkBack then do
      let ne ← s.deref e
      walkBackward g Vs fuel i p fuel s ne.prev
    else pure s
  let s ← hashEdge g Vs s e
  let ne ← s.deref e
  hashEdge g Vs s ne.prev

theorem insertPoint_parts (g : Geo P) (Vs : List P) (fuel : ℕ) (s : St) (i : ℤ) (p : P) : insertPoint g Vs fuel s i p =
    (insPre g Vs fuel s i p >>= fun o => match o with
      | none => .ok s
      | some x => legalize g Vs fuel x.1 x.2.2.1 >>= fun y => insMid x.2.1 y.1 y.2 >>= fun z =>
        walkForward g Vs fuel i p fuel z.1 z.2 >>= fun s => insEnd g Vs fuel i p x.2.1 x.2.2.2 s) := by
  unfold insertPoint insPre
  simp only [Res.bind_assoc']
  congr 1; funext start
  congr 1; funext ns
  congr 1; funext e
  cases e with
  | none => rfl
  | some e =>
    unfold insMid insEnd
    simp only [Res.bind_assoc', Res.pure_eq, Res.bind_ok]

theorem insPre_mono (g : Geo P) (Vs : List P) {f f' : ℕ} (h : f ≤ f') (s : St) (i : ℤ) (p : P) : FLe (insPre g Vs f s i p) (insPre g Vs f' s i p) := by
  unfold insPre
  exact FLe.bind FLe.rfl' fun start => FLe.bind FLe.rfl' fun ns => FLe.bind (findVisible_mono g Vs p _ s h _) fun e => FLe.rfl'

/-- a computation that ended keeps its outcome -/
theorem FLe.ok {α : Type} {x y : Res α} {a : α} (h : FLe x y) (hx : x = .ok a) : y = .ok a := by
  rcases h with h | h
  · rw [hx] at h; cases h
  · rw [← h, hx]

end Verif.Proofs
