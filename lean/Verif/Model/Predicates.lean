import Verif.Model.R3
/-!
# Model of package `predicates`
-/
namespace Verif.Predicates
open Verif Verif.R3

variable {F : Type u}

/-- predicates/orient3d.go:5-19 `orient3dfast` -/
def orient3dfast [_root_.Add F] [_root_.Sub F] [Mul F] (a b c d : Vector F) : F :=
  let adx := a.X - d.X
  let bdx := b.X - d.X
  let cdx := c.X - d.X
  let ady := a.Y - d.Y
  let bdy := b.Y - d.Y
  let cdy := c.Y - d.Y
  let adz := a.Z - d.Z
  let bdz := b.Z - d.Z
  let cdz := c.Z - d.Z
  adx*(bdy*cdz-bdz*cdy) + bdx*(cdy*adz-cdz*ady) + cdx*(ady*bdz-adz*bdy)

/-- predicates/insphere.go:11-43 `InSphereFast` -/
def InSphereFast [_root_.Add F] [_root_.Sub F] [Mul F] (pa pb pc pd pe : Vector F) : F :=
  let aex := pa.X - pe.X
  let bex := pb.X - pe.X
  let cex := pc.X - pe.X
  let dex := pd.X - pe.X
  let aey := pa.Y - pe.Y
  let bey := pb.Y - pe.Y
  let cey := pc.Y - pe.Y
  let dey := pd.Y - pe.Y
  let aez := pa.Z - pe.Z
  let bez := pb.Z - pe.Z
  let cez := pc.Z - pe.Z
  let dez := pd.Z - pe.Z
  let ab := aex*bey - bex*aey
  let bc := bex*cey - cex*bey
  let cd := cex*dey - dex*cey
  let da := dex*aey - aex*dey
  let ac := aex*cey - cex*aey
  let bd := bex*dey - dex*bey
  let abc := aez*bc - bez*ac + cez*ab
  let bcd := bez*cd - cez*bd + dez*bc
  let cda := cez*da + dez*ac + aez*cd
  let dab := dez*ab + aez*bd + bez*da
  let alift := aex*aex + aey*aey + aez*aez
  let blift := bex*bex + bey*bey + bez*bez
  let clift := cex*cex + cey*cey + cez*cez
  let dlift := dex*dex + dey*dey + dez*dez
  (clift*dab - dlift*abc) + (alift*bcd - blift*cda)

/-- predicates/util.go:3 `const epsilon = 1.1102230246251565e-16` (untyped constant, exact) -/
def epsilon : ℚ := 11102230246251565 / 10^32

/-- predicates/insphere.go:8 `const isperrboundA = (16 + 224*epsilon) * epsilon` (untyped constant, exact) -/
def isperrboundA : ℚ := (16 + 224*epsilon) * epsilon

/-- predicates/insphere.go:118-120 `inSphereAdapt` -/
def inSphereAdapt [OfNat F 0] (_ax _ay _az _bx _by _bz _cx _cy _cz _dx _dy _dz _ex _ey _ez _permanent : F) : F := 0

/-- predicates/insphere.go:45-116 `inSphere` -/
def inSphere [_root_.Add F] [_root_.Sub F] [Mul F] [Neg F] [GoAbs F] [LT F] [DecidableLT F]
    [GoConst F] [OfNat F 0]
    (ax ay az bx by' bz cx cy cz dx dy dz ex ey ez : F) : F :=
  let aex := ax - ex
  let bex := bx - ex
  let cex := cx - ex
  let dex := dx - ex
  let aey := ay - ey
  let bey := by' - ey
  let cey := cy - ey
  let dey := dy - ey
  let aez := az - ez
  let bez := bz - ez
  let cez := cz - ez
  let dez := dz - ez
  let aexbey := aex * bey
  let bexaey := bex * aey
  let ab := aexbey - bexaey
  let bexcey := bex * cey
  let cexbey := cex * bey
  let bc := bexcey - cexbey
  let cexdey := cex * dey
  let dexcey := dex * cey
  let cd := cexdey - dexcey
  let dexaey := dex * aey
  let aexdey := aex * dey
  let da := dexaey - aexdey
  let aexcey := aex * cey
  let cexaey := cex * aey
  let ac := aexcey - cexaey
  let bexdey := bex * dey
  let dexbey := dex * bey
  let bd := bexdey - dexbey
  let abc := aez*bc - bez*ac + cez*ab
  let bcd := bez*cd - cez*bd + dez*bc
  let cda := cez*da + dez*ac + aez*cd
  let dab := dez*ab + aez*bd + bez*da
  let alift := aex*aex + aey*aey + aez*aez
  let blift := bex*bex + bey*bey + bez*bez
  let clift := cex*cex + cey*cey + cez*cez
  let dlift := dex*dex + dey*dey + dez*dez
  let det := (clift*dab - dlift*abc) + (alift*bcd - blift*cda)
  let aezplus := GoAbs.abs aez
  let bezplus := GoAbs.abs bez
  let cezplus := GoAbs.abs cez
  let dezplus := GoAbs.abs dez
  let aexbeyplus := GoAbs.abs aexbey
  let bexaeyplus := GoAbs.abs bexaey
  let bexceyplus := GoAbs.abs bexcey
  let cexbeyplus := GoAbs.abs cexbey
  let cexdeyplus := GoAbs.abs cexdey
  let dexceyplus := GoAbs.abs dexcey
  let dexaeyplus := GoAbs.abs dexaey
  let aexdeyplus := GoAbs.abs aexdey
  let aexceyplus := GoAbs.abs aexcey
  let cexaeyplus := GoAbs.abs cexaey
  let bexdeyplus := GoAbs.abs bexdey
  let dexbeyplus := GoAbs.abs dexbey
  let permanent := ((cexdeyplus+dexceyplus)*bezplus+(dexbeyplus+bexdeyplus)*cezplus+(bexceyplus+cexbeyplus)*dezplus)*alift +
    ((dexaeyplus+aexdeyplus)*cezplus+(aexceyplus+cexaeyplus)*dezplus+(cexdeyplus+dexceyplus)*aezplus)*blift +
    ((aexbeyplus+bexaeyplus)*dezplus+(bexdeyplus+dexbeyplus)*aezplus+(dexaeyplus+aexdeyplus)*bezplus)*clift +
    ((bexceyplus+cexbeyplus)*aezplus+(cexaeyplus+aexceyplus)*bezplus+(aexbeyplus+bexaeyplus)*cezplus)*dlift
  let errbound := GoConst.const isperrboundA * permanent
  if errbound < det ∨ errbound < -det then det
  else -(inSphereAdapt ax ay az bx by' bz cx cy cz dx dy dz ex ey ez permanent)

end Verif.Predicates
