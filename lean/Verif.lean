import Verif.CalDB.Concurrent
import Verif.Walker.Props
import Verif.Dataset.Split
import Verif.Levels.Props
import Verif.Errors.Props
import Verif.Provenance.Props
import Verif.Combine.Props
import Verif.Combine.Robust
import Verif.Combine.Stages
import Verif.Combine.StagesRank
import Verif.L2a.FrameSelect
import Verif.L2a.Dq
import Verif.L2a.Desmear
import Verif.Detector.Prescan
import Verif.Detector.Cosmics
import Verif.Detector.NonLin
import Verif.Darks.Corr
import Verif.PhotonCount.PcMean
import Verif.PhotonCount.Converge
import Verif.PhotonCount.Limit
import Verif.PhotonCount.PcDark
import Verif.PhotonCount.Clip
import Verif.L4.Crop
import Verif.L3.Wcs
import Verif.L2a.Arith
import Verif.BadPix.BadPix
import Verif.Data.Bits
import Verif.Data.Ftime
import Verif.Data.Autoload
import Verif.Data.Products
import Verif.Data.Image
import Verif.Data.Hash
import Verif.Detector.NanFlags
import Verif.Sorting.MeanFrame
import Verif.Sorting.KGainSort
import Verif.Dataset.Steps
import Verif.Flat.Flat
import Verif.Flux.Simpson
import Verif.Flux.Band
import Verif.Tda.Phot
import Verif.Tda.FindSource
import Verif.Tda.SnMap
import Verif.Tda.Frn
import Verif.Nd.Nd
import Verif.Nd.Interp
import Verif.Ct.Centroid
import Verif.Ct.CoreThroughput
import Verif.Ct.CtMap
import Verif.Ct.GetPsf
import Verif.Astrom.Angles
import Verif.Astrom.Combos
import Verif.Astrom.Scale
import Verif.Astrom.Boresight
import Verif.Astrom.Sources
import Verif.Astrom.Distortion
import Verif.Astrom.Moment
import Verif.Provenance.Alias
import Verif.StarCenter.Circle
import Verif.StarCenter.Fit
import Verif.StarCenter.Energy
import Verif.StarCenter.Minimise
import Verif.StarCenter.FindStar
import Verif.Psf.Northup
import Verif.Psf.PyklipDataset
import Verif.Psf.Subtract
import Verif.Psf.Forward
import Verif.Psf.Inject
import Verif.Psf.Thrupt
import Verif.Psf.Companions
import Verif.Kgain.Data
import Verif.Kgain.Ptc
import Verif.Kgain.Estimate
import Verif.Common.Groups
import Verif.Nonlin.Data
import Verif.Nonlin.Drift
import Verif.Nonlin.Table
import Verif.TrapPump.Prob
import Verif.TrapPump.Illum
import Verif.TrapPump.Id
import Verif.TrapPump.Fit
import Verif.TrapPump.Match
import Verif.TrapPump.Link
import Verif.TrapPump.Density
import Verif.TrapPump.Code
import Verif.TrapPump.Tau
import Verif.TrapPump.Prep
import Verif.Setup.Check
import Verif.Setup.Config
import Verif.Setup.Init
import Verif.Setup.DetParams
import Verif.Walker.Templates
import Verif.Walker.Record
import Verif.Walker.Save
import Verif.Sorting.FrameId
import Verif.Ct.Lens
import Verif.Kgain.ReadNoise
import Verif.Psf.CompPhot
import Verif.Psf.CompCards
import Verif.CalDB.Csv
import Verif.Flux.Calspec
import Verif.EndToEnd.L2b
import Verif.Tda.ToFlux
import Verif.Data.Format
import Verif.EndToEnd.Errors
import Verif.EndToEnd.Photometry
import Verif.Tda.Mags
import Verif.Flat.Kernel
import Verif.CalDB.Suit
import Verif.CalDB.Remake
import Verif.CalDB.Crash
import Verif.CalDB.Schedules
import Verif.EndToEnd.Sky
import Verif.Float.Rounding
import Verif.Float.Steps
import Verif.Float.Sums
import Verif.PhotonCount.Truncation
import Verif.Prob.Combined
import Verif.Prob.Aper
import Verif.Prob.NoiseMaps
import Verif.Prob.Ptc
import Verif.Psf.CompTable
import Verif.Order.Order
import Verif.Twice.Twice
import Verif.Batch.Batch
import Verif.EndToEnd.Flagged
import Verif.Astrom.Spline
import Verif.CalDB.Chain
import Verif.CalDB.Files
import Verif.Prob.Pixels
import Verif.Walker.Among
import Verif.Walker.Calls
import Verif.Walker.NoInput
import Verif.CalDB.Choice
import Verif.Setup.Scan
import Verif.EndToEnd.Cancel
import Verif.EndToEnd.Walk
import Verif.EndToEnd.Offset
import Verif.Detector.Plateau
import Verif.Detector.Modes
import Verif.Detector.Cut
import Verif.EndToEnd.Cone
import Verif.EndToEnd.Digit
import Verif.EndToEnd.Clip
import Verif.EndToEnd.Loop
import Verif.EndToEnd.Campaign
import Verif.EndToEnd.Counted
import Verif.PhotonCount.Accuracy
import Verif.EndToEnd.Accurate
import Verif.EndToEnd.Many
import Verif.EndToEnd.Floor
import Verif.EndToEnd.FloorLight
import Verif.EndToEnd.PcWalk
import Verif.EndToEnd.Ray
import Verif.EndToEnd.Rate
import Verif.EndToEnd.Ops
import Verif.Darks.Gains
