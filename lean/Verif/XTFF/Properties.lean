import Verif.XTFF.Frames

/-! Properties C272 to C285 are proved in `Elements`, `Options`, `Reading` and `Frames`. -/
