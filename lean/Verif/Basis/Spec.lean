import Verif.Basis.Model
import Verif.Mesh.Props

/-!
# Declarative description of a well-formed symmetry-adapted basis

Independent of the loops that build and check it.
-/

namespace Verif.Basis
open Verif.Mesh (IntVec InRange shiftVec)

/-- Closed stars (flag 0) and pairs of open stars (flags 1, -1) of equal size and cancellation. -/
inductive Paired : List Star → Prop
  | nil : Paired []
  | closed (s : Star) (rest : List Star) : s.invertFlag = 0 → Paired rest → Paired (s :: rest)
  | opened (s t : Star) (rest : List Star) : s.invertFlag = 1 → t.invertFlag = -1 →
      t.size = s.size → t.cancel = s.cancel → Paired rest → Paired (s :: t :: rest)

/-- Number of basis functions belonging to the first `k` stars. -/
def nBefore (stars : List Star) (k : Nat) : Nat := ((stars.take k).filter (fun s => !s.cancel)).length

variable {K : Type} [Field K] [LinearOrder K]

/-- A well-formed basis.  `eps` is the tolerance on coefficients. -/
structure Valid (c : Cell K) (eps : K) (b : BasisData K) : Prop where
  /-- the mesh is legal -/
  mesh : b.dims ≠ [] ∧ ∀ d ∈ b.dims, 0 < d
  /-- one wave per mesh point, in bijection through the DFT indices -/
  count : (b.waves.length : Int) = b.dims.prod
  dftRange : ∀ (i : Nat) w, b.waves[i]? = some w → InRange b.dims w.dft
  dftInj : ∀ (i j : Nat) w w', b.waves[i]? = some w → b.waves[j]? = some w' → w.dft = w'.dft → i = j
  dftSurj : ∀ v, InRange b.dims v → ∃ i w, b.waves[i]? = some w ∧ w.dft = v ∧
    ∀ m, Mesh.Mesh.setDimensions b.dims = some m → b.waveIds[(m.rank v).toNat]? = some i
  /-- `indicesBz` is an image of `indicesDft` -/
  bzImage : ∀ (i : Nat) w, b.waves[i]? = some w → (shiftVec b.dims w.bz).2 = w.dft
  /-- stars are consecutive ranges that cover all waves -/
  first : ∀ s, b.stars[0]? = some s → s.beginId = 0
  consec : ∀ (k : Nat) s t, b.stars[k]? = some s → b.stars[k + 1]? = some t → t.beginId = s.endId
  last : ∃ s, b.stars[b.stars.length - 1]? = some s ∧ s.endId = b.waves.length
  sizes : ∀ s ∈ b.stars, s.endId = s.beginId + s.size
  /-- every wave knows its star and conversely -/
  waveStar : ∀ (i : Nat) w, b.waves[i]? = some w →
    ∃ s, b.stars[w.starId]? = some s ∧ s.beginId ≤ i ∧ i < s.endId
  starWave : ∀ (k : Nat) s, b.stars[k]? = some s → ∀ i, s.beginId ≤ i → i < s.endId →
    ∃ w, b.waves[i]? = some w ∧ w.starId = k
  /-- `indicesBz` strictly descending within a star -/
  order : ∀ s ∈ b.stars, ∀ i w w', s.beginId ≤ i → i + 1 < s.endId →
    b.waves[i]? = some w → b.waves[i + 1]? = some w' → Mesh.vecGt w'.bz w.bz = false ∧ w'.bz ≠ w.bz
  /-- `inverseId` is an involution that maps every wavevector to its negative -/
  inverse : ∀ (i : Nat) w, b.waves[i]? = some w → ∃ j : Nat, ∃ w', w.inverseId = j ∧
    b.waves[j]? = some w' ∧ w'.inverseId = i ∧ w'.dft = (shiftVec b.dims (negate w.bz)).2 ∧
    ¬ (w.implicit = true ∧ w'.implicit = true)
  /-- an implicit wave is one outside of the half mesh of a real transform -/
  implicit : ∀ (i : Nat) w, b.waves[i]? = some w → w.implicit = isImplicit b.dims w.dft
  /-- stars are closed or come in adjacent pairs related by inversion -/
  paired : Paired b.stars
  closedInv : ∀ (k : Nat) s, b.stars[k]? = some s → s.invertFlag = 0 →
    ∀ (i : Nat) w, b.waves[i]? = some w → w.starId = k → ∀ (j : Nat) w', w.inverseId = j →
      b.waves[j]? = some w' → w'.starId = k ∧
      (s.cancel = false → Cx.normSq (Cx.conj w'.coeff - w.coeff) ≤ eps * eps)
  openInv : ∀ (k : Nat) s, b.stars[k]? = some s → s.invertFlag = 1 →
    ∀ (i : Nat) w, b.waves[i]? = some w → w.starId = k → ∀ (j : Nat) w', w.inverseId = j →
      b.waves[j]? = some w' → w'.starId = k + 1 ∧
      (s.cancel = false → Cx.normSq (Cx.conj w'.coeff - w.coeff) ≤ eps * eps)
  /-- characteristic wave of a star -/
  waveBz : ∀ (k : Nat) s, b.stars[k]? = some s → s.invertFlag ≠ -1 →
    ∃ w, b.waves[s.beginId]? = some w ∧ s.waveBz = w.bz
  waveBzNeg : ∀ (k : Nat) s, b.stars[k]? = some s → s.invertFlag = -1 →
    ∃ k' p, k = k' + 1 ∧ b.stars[k']? = some p ∧ s.waveBz = c.minIm (negate p.waveBz)
  /-- star and basis function indices -/
  starId : ∀ (k : Nat) s, b.stars[k]? = some s → s.starId = k
  basisId : ∀ (k : Nat) s, b.stars[k]? = some s →
    s.basisId = if s.cancel then -1 else (nBefore b.stars k : Int)
  starIds : ∀ (ib k : Nat), b.starIds[ib]? = some k ↔
    ∃ s, b.stars[k]? = some s ∧ s.cancel = false ∧ s.basisId = ib
  nBasis : b.nBasis = nBefore b.stars b.stars.length ∧ b.starIds.length = b.nBasis

end Verif.Basis
