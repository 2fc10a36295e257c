import Verif.SpecEnd
import Verif.SpecProfile

/-! # Sessions that look the same from outside -/

namespace Acs.Spec

variable {K : Type} [Field K] [LinearOrder K] [FloorRing K]

/-- What a caller gets from a list of calls: the result buffers and return codes, or how the calls end. -/
def heard {α : Type} : R K (World K × α) → C α
  | .ok p => .ok p.2
  | .error (.dead f) => .error f
  | .error (.threw _) => .error .thrown

/-- All getters of the two crossbars report the same. -/
structure LooksAlike (x y : Xbar K) : Prop where
  gd : y.mapper.core.gd = x.mapper.core.gd
  ia : y.mapper.core.ia = x.mapper.core.ia
  rd : y.rd = x.rd
  counters : y.writes = x.writes ∧ y.mvms = x.mvms ∧ y.consec = x.consec ∧ y.refX = x.refX ∧ y.refC = x.refC
  rng : y.mapper.aux.rng = x.mapper.aux.rng
  hists : y.mapper.aux.hists = x.mapper.aux.hists

end Acs.Spec
