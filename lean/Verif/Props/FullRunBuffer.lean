import Verif.Props.FullRunList

/-! # The buffers of the whole run -/

set_option Elab.async false

namespace Ply.FullRun

theorem buffer_right1 : right (bufferTab.take 1) real.buffer = true := by decide +kernel

theorem buffer_right2 : right ((bufferTab.drop 1).take 1) real.buffer = true := by decide +kernel

theorem buffer_right3 : right ((bufferTab.drop 2).take 2) real.buffer = true := by decide +kernel

theorem buffer_right4 : right ((bufferTab.drop 4).take 2) real.buffer = true := by decide +kernel

theorem buffer_right5 : right ((bufferTab.drop 6).take 1) real.buffer = true := by decide +kernel

theorem buffer_right6 : right (bufferTab.drop 7) real.buffer = true := by decide +kernel

end Ply.FullRun
