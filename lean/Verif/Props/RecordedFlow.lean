import Verif.Lemmas.Recorded
import Verif.Model.Flow

/-! # C128: recorded outputs of the pressure drop functions -/

namespace Verif.Recorded

open Flow

/-- **C128.** The recorded outputs: pressure drops, friction factor, drag and Stokes velocity. -/
theorem C128_friction :
    Gives (dpHagenPoiseuille 1e-3 50e-3 5 10) 3.3e5 1e4 ∧
    Gives (dpDarcyWeisbach 2 25e-3 5e2 1e3 (fDHaaland (1e3 * 2 * 25e-3 / 1e-3) (0.0015e-3 / 25e-3))) 8.3e5 1e4 ∧
    Gives (dpTube (3 / 3600) 25e-3 5e2 1e3 1e-3 (0.0015e-3 / 25e-3)) 6.2e5 1e4 ∧
    Gives (dpPackedBed 50 2 1e-2 0.45 800 0.01) 1.4e4 1e3 ∧
    Shows (fDHaaland 5e4 (0.0015 / 25)) 0.021 0.001 ∧
    Shows (cdSphere (1.2 * 30 * 6.7e-2 / 1.6e-5)) 0.47 0.01 ∧
    Shows (vtStokes 9.80665 500e-9 1.4e3 1e3 1e-3) 5.4e-8 1e-9 := by
  refine ⟨?_, ?_, ?_, ?_, ?_, ?_, ?_⟩
  · evald [dpHagenPoiseuille]
    iv
  · evald [dpDarcyWeisbach, fDHaaland]
    iv
  · evald [dpTube, dpDarcyWeisbach, fDHaaland, fDtube]
    iv
  · evald [dpPackedBed]
    iv
  · evald [fDHaaland]
    iv
  · evald [cdSphere]
    iv
  · evald [vtStokes]
    iv

set_option synthInstance.maxHeartbeats 400000 in
set_option synthInstance.maxSize 4096 in
set_option maxHeartbeats 4000000 in
/-- **C128.** The recorded outputs: `DP_GL_Lockhart_Martinelli`. -/
theorem C128_Lockhart_Martinelli : Gives (dpLockhartMartinelli 2 1 80e-3 1 1e3 1 1e-3 2e-5 0) 8.2e3 1e2 := by
  evald [dpLockhartMartinelli, lmPhase, dpDarcyWeisbach, fDHaaland, fDtube, lmC]
  iv

set_option synthInstance.maxHeartbeats 400000 in
set_option synthInstance.maxSize 4096 in
set_option maxHeartbeats 4000000 in
/-- **C128.** The recorded outputs: `DP_GL_Mueller_Bonn`. -/
theorem C128_Mueller_Bonn :
    Gives (dpMuellerBonn 2 1 80e-3 1 1e3 1 1e-3 2e-5) 1.1e4 1e3 := by
  evald [dpMuellerBonn, mbGrad]
  iv

end Verif.Recorded
