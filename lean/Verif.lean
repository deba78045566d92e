import Verif.Common.Outcome
import Verif.StringPattern.Properties
import Verif.DataTable.Properties
import Verif.TFS.Properties
import Verif.Ring.Properties
import Verif.Range.Properties
import Verif.Lattice.Properties
import Verif.Rotation.Properties
import Verif.Transform.Properties
import Verif.RefCount.Properties
import Verif.Frame.Properties
import Verif.LatticeFrame.Properties
import Verif.Channel.Properties
import Verif.Feedback.Properties
import Verif.Monitor.Properties
import Verif.Random.Properties
import Verif.Klystron.Properties
import Verif.StepManager.Properties
import Verif.Tracker.Properties
import Verif.Processes.Properties
import Verif.Constructor.Properties
import Verif.Interpolation.Properties
import Verif.Aperture.Properties
import Verif.ApertureConfig.Properties
import Verif.Tracking.Properties
import Verif.Multipole.Properties
import Verif.LinMap.Properties
import Verif.Transport.Properties
import Verif.Histogram.Properties
import Verif.Bunch.Properties
import Verif.Beam.Properties
import Verif.LossMap.Properties
import Verif.Collimation.Properties
import Verif.MatrixMap.Properties
import Verif.Support.Properties
import Verif.Spin.Properties
import Verif.Slices.Properties
import Verif.MultiNormal.Properties
import Verif.Wake.Properties
import Verif.Distribution.Properties
import Verif.SliceWake.Properties
import Verif.ModeWake.Properties
import Verif.Radiation.Properties
import Verif.Survey.Properties
import Verif.RFMaps.Properties
import Verif.LinAlg.Properties
import Verif.LU.Properties
import Verif.ATL.Properties
import Verif.Errors.Properties
import Verif.NANCheck.Properties
import Verif.CollDB.Properties
import Verif.Material.Properties
import Verif.Scatter.Properties
import Verif.Orbit.Properties
import Verif.Twiss.Properties
import Verif.Tunes.Properties
import Verif.Equilibrium.Properties
import Verif.Symplectic.Properties
import Verif.TransportMaps.Properties
import Verif.RectMultipole.Properties
import Verif.HollowLens.Properties
import Verif.MAD.Properties
import Verif.Components.Properties
import Verif.ThinLens.Properties
import Verif.SMPMaps.Properties
import Verif.XTFF.Properties
import Verif.Crab.Properties
import Verif.Photon.Properties
import Verif.Coupler.Properties
import Verif.Generators.Properties
import Verif.Elastic.Properties
import Verif.Diffractive.Properties
import Verif.Format.Properties
import Verif.Landau.Properties
import Verif.Resistive.Properties
import Verif.Absorber.Properties
import Verif.Hierarchy.Properties
import Verif.Mover.Properties
import Verif.Stable.Properties
import Verif.Profile.Properties
import Verif.MapComponent.Properties
import Verif.EigenSym.Properties
import Verif.SVD.Properties
import Verif.Impacts.Properties
import Verif.Dense.Properties
import Verif.MVC.Properties
import Verif.PSvec.Properties
import Verif.Plane.Properties
import Verif.Weighted.Properties
