import Verif.Bunch.Hamiltonian
import Verif.Bunch.Lemmas
import Verif.Bunch.LemmasRoundedPotential
import Verif.Bunch.Model
import Verif.Bunch.PropsAperture
import Verif.Bunch.PropsElliptic
import Verif.Bunch.PropsGaussian
import Verif.Bunch.PropsHamiltonian
import Verif.Bunch.PropsHistory
import Verif.Bunch.PropsPlanes
import Verif.Bunch.PropsRoundedFormula
import Verif.Bunch.PropsRoundedKV
import Verif.Bunch.PropsRoundedNonlinear
import Verif.Bunch.PropsRoundedPotential
import Verif.Bunch.PropsRoundedShell
import Verif.Bunch.PropsSetters
import Verif.Bunch.PropsShell
import Verif.Bunch.PropsStrength
import Verif.Bunch.RoundedKV
import Verif.Bunch.RoundedNonlinear
import Verif.Bunch.RoundedPotential
import Verif.Const.Model
import Verif.Const.Props
import Verif.Decoherence.ArrayAny
import Verif.Decoherence.Model
import Verif.Decoherence.Props
import Verif.Decoherence.PropsArrayAny
import Verif.Decoherence.PropsRounded
import Verif.Decoherence.PropsRoundedAny
import Verif.Decoherence.PropsRoundedArray
import Verif.Decoherence.PropsRoundedQuad
import Verif.Decoherence.PropsTurns
import Verif.Decoherence.Rounded
import Verif.Decoherence.RoundedAny
import Verif.Decoherence.RoundedArray
import Verif.Import.Importer
import Verif.Import.Lemmas
import Verif.Import.Props
import Verif.Import.PropsErrors
import Verif.Import.PropsIds
import Verif.Import.Spec
import Verif.Kinematic.CommandLine
import Verif.Kinematic.Lemmas
import Verif.Kinematic.Model
import Verif.Kinematic.Props
import Verif.Kinematic.PropsAbbrev
import Verif.Kinematic.PropsAccuracy
import Verif.Kinematic.PropsCallsIff
import Verif.Kinematic.PropsCommand
import Verif.Kinematic.PropsExact
import Verif.Kinematic.PropsFast
import Verif.Kinematic.PropsLabels
import Verif.Kinematic.PropsRounded
import Verif.Kinematic.Rounded
import Verif.Kinematic.Spec
import Verif.Lattice.Beamline
import Verif.Lattice.Lemmas
import Verif.Lattice.LemmasFlat
import Verif.Lattice.LemmasHeap
import Verif.Lattice.LemmasNested
import Verif.Lattice.LemmasYaml
import Verif.Lattice.Matrix
import Verif.Lattice.PropsBeamline
import Verif.Lattice.PropsEdit
import Verif.Lattice.PropsGrow
import Verif.Lattice.PropsMatrix
import Verif.Lattice.PropsMatrixValues
import Verif.Lattice.PropsNested
import Verif.Lattice.PropsRounded
import Verif.Lattice.PropsSubline
import Verif.Lattice.PropsYaml
import Verif.Lattice.PropsYamlKeys
import Verif.Lattice.Rounded
import Verif.Lattice.Spec
import Verif.Lattice.Yaml
import Verif.Lte.LineText
import Verif.Lte.Parser
import Verif.Lte.PropsDef
import Verif.Lte.PropsFile
import Verif.Lte.PropsLine
import Verif.Lte.PropsPi
import Verif.Lte.PropsRpn
import Verif.Lte.PropsSanitize
import Verif.Lte.PropsSequence
import Verif.Lte.PropsSequenceIff
import Verif.Lte.PropsSession
import Verif.Lte.PropsVars
import Verif.Lte.Rpn
import Verif.Lte.Session
import Verif.Nonlinear.Model
import Verif.Nonlinear.Props
import Verif.Nonlinear.PropsHalves
import Verif.Nonlinear.PropsRounded
import Verif.Nonlinear.PropsSlices
import Verif.Nonlinear.Rounded
import Verif.Phases.Model
import Verif.Phases.PropsAdvance
import Verif.Phases.PropsSlice
import Verif.Phases.PropsTune
import Verif.Phases.Rounded
import Verif.Plot.BeamProfile
import Verif.Plot.Density
import Verif.Plot.Figures
import Verif.Plot.Histogram
import Verif.Plot.Profile
import Verif.Plot.PropsBeamProfile
import Verif.Plot.PropsDensity
import Verif.Plot.PropsErrors
import Verif.Plot.PropsFigures
import Verif.Plot.PropsGlued
import Verif.Plot.PropsHistogram
import Verif.Plot.PropsLevels
import Verif.Plot.PropsNested
import Verif.Plot.PropsOverlap
import Verif.Plot.PropsProfile
import Verif.Plot.PropsProjection
import Verif.Plot.PropsRoundedDensity
import Verif.Plot.PropsRoundedHistogram
import Verif.Plot.PropsRoundedLevels
import Verif.Plot.PropsRoundedProfile
import Verif.Plot.PropsScatter
import Verif.Plot.PropsScatterContour
import Verif.Plot.PropsScatterEmpty
import Verif.Plot.PropsSymbol
import Verif.Plot.RoundedDensity
import Verif.Plot.RoundedHistogram
import Verif.Plot.RoundedLevels
import Verif.Plot.RoundedProfile
import Verif.Plot.Scatter
import Verif.Plot.ScatterContour
import Verif.Plot.Symbol
import Verif.Ptcls.Current
import Verif.Ptcls.Distrib
import Verif.Ptcls.LemmasDistrib
import Verif.Ptcls.LemmasRoundedTwiss
import Verif.Ptcls.PropsBeam
import Verif.Ptcls.PropsClean
import Verif.Ptcls.PropsCurrent
import Verif.Ptcls.PropsDesign
import Verif.Ptcls.PropsNewSpace
import Verif.Ptcls.PropsRoundedComponents
import Verif.Ptcls.PropsRoundedDistrib
import Verif.Ptcls.PropsRoundedGamma
import Verif.Ptcls.PropsRoundedMap
import Verif.Ptcls.PropsRoundedMoments
import Verif.Ptcls.PropsRoundedTwiss
import Verif.Ptcls.PropsStore
import Verif.Ptcls.PropsTwiss
import Verif.Ptcls.RoundedComponents
import Verif.Ptcls.RoundedDesign
import Verif.Ptcls.RoundedDistrib
import Verif.Ptcls.RoundedGamma
import Verif.Ptcls.RoundedMoments
import Verif.Ptcls.RoundedTwiss
import Verif.Ptcls.Store
import Verif.Py.Basic
import Verif.Py.Near
import Verif.Py.Rounding
import Verif.Py.Text
import Verif.Py.TextFind
import Verif.Py.TextLemmas
import Verif.Py.TiesEven
import Verif.Sample.Model
import Verif.Sample.Props
import Verif.Sample.PropsInterp
import Verif.Sample.PropsInterpIff
import Verif.Sample.PropsRounded
import Verif.Sample.PropsRoundedInterp
import Verif.Sample.Rounded
import Verif.Sdds.Accessors
import Verif.Sdds.Ascii
import Verif.Sdds.AsciiWrite
import Verif.Sdds.Counts
import Verif.Sdds.Header
import Verif.Sdds.LemmasAscii
import Verif.Sdds.LemmasAscii2
import Verif.Sdds.LemmasAscii3
import Verif.Sdds.LemmasAsciiWrite
import Verif.Sdds.LemmasAsciiWrite2
import Verif.Sdds.LemmasBlank
import Verif.Sdds.LemmasCounts
import Verif.Sdds.LemmasCut
import Verif.Sdds.LemmasCutU
import Verif.Sdds.LemmasEarly
import Verif.Sdds.LemmasFields
import Verif.Sdds.LemmasFile
import Verif.Sdds.LemmasFuel
import Verif.Sdds.LemmasHeader
import Verif.Sdds.LemmasHeaderCut
import Verif.Sdds.LemmasHeld
import Verif.Sdds.LemmasLines
import Verif.Sdds.LemmasMulti
import Verif.Sdds.LemmasNewline
import Verif.Sdds.LemmasQuote
import Verif.Sdds.LemmasRead
import Verif.Sdds.LemmasRead2
import Verif.Sdds.LemmasRead3
import Verif.Sdds.LemmasRead4
import Verif.Sdds.LemmasStrings
import Verif.Sdds.LemmasText
import Verif.Sdds.LemmasTrunc
import Verif.Sdds.LemmasWrite
import Verif.Sdds.LemmasWrite2
import Verif.Sdds.PropsAscii
import Verif.Sdds.PropsAsciiWrite
import Verif.Sdds.PropsBuffer
import Verif.Sdds.PropsBuffered
import Verif.Sdds.PropsCounts
import Verif.Sdds.PropsCreate
import Verif.Sdds.PropsCut
import Verif.Sdds.PropsCutSel
import Verif.Sdds.PropsCutU
import Verif.Sdds.PropsEnds
import Verif.Sdds.PropsFields
import Verif.Sdds.PropsForeign
import Verif.Sdds.PropsFree
import Verif.Sdds.PropsHeader
import Verif.Sdds.PropsHeaderCut
import Verif.Sdds.PropsLarge
import Verif.Sdds.PropsLengths
import Verif.Sdds.PropsLines
import Verif.Sdds.PropsLookup
import Verif.Sdds.PropsMixed
import Verif.Sdds.PropsMixedU
import Verif.Sdds.PropsNegative
import Verif.Sdds.PropsNewline
import Verif.Sdds.PropsOpen
import Verif.Sdds.PropsPlace
import Verif.Sdds.PropsQuote
import Verif.Sdds.PropsRagged
import Verif.Sdds.PropsRead
import Verif.Sdds.PropsReadState
import Verif.Sdds.PropsSelect
import Verif.Sdds.PropsStack
import Verif.Sdds.PropsStops
import Verif.Sdds.PropsStrings
import Verif.Sdds.PropsText
import Verif.Sdds.PropsUncounted
import Verif.Sdds.PropsUncountedLines
import Verif.Sdds.PropsUtils
import Verif.Sdds.PropsWrite
import Verif.Sdds.Read
import Verif.Sdds.ReadState
import Verif.Sdds.Spec
import Verif.Sdds.SpecAscii
import Verif.Sdds.SpecAsciiWrite
import Verif.Sdds.SpecFile
import Verif.Sdds.SpecHeader
import Verif.Sdds.SpecWrite
import Verif.Sdds.Utils
import Verif.Sdds.Write
import Verif.Stats6d.Jacobi
import Verif.Stats6d.Lemmas
import Verif.Stats6d.LemmasJacobi
import Verif.Stats6d.LemmasJacobi2
import Verif.Stats6d.LemmasJacobi3
import Verif.Stats6d.Model
import Verif.Stats6d.Props
import Verif.Stats6d.PropsExact
import Verif.Stats6d.PropsJacobiAll
import Verif.Stats6d.PropsJacobiFails
import Verif.Stats6d.PropsPure
import Verif.Stats6d.PropsRounded
import Verif.Stats6d.PropsRoundedAccuracy
import Verif.Stats6d.PropsRoundedAverage
import Verif.Stats6d.PropsRoundedCorrelations
import Verif.Stats6d.PropsRoundedNormalize
import Verif.Stats6d.PropsRoundedSigFigs
import Verif.Stats6d.PropsSigFigs
import Verif.Stats6d.Rounded
import Verif.Stats6d.RoundedAverage
import Verif.Stats6d.RoundedCorrelations
import Verif.Stats6d.RoundedNormalize
import Verif.Stats6d.RoundedSigFigs
import Verif.Stats6d.SigFigs
import Verif.Stats6d.Spec
import Verif.Switch.Charges
import Verif.Switch.Lemmas
import Verif.Switch.Model
import Verif.Switch.Props
import Verif.Switch.PropsCharges
import Verif.Switch.PropsConvention
import Verif.Switch.PropsDatasets
import Verif.Switch.PropsDefault
import Verif.Switch.PropsGenesis
import Verif.Switch.PropsOpal
import Verif.Switch.PropsRegistry
import Verif.Switch.PropsRounded
import Verif.Switch.Rounded
import Verif.Trace.Bends
import Verif.Trace.LemmasWin
import Verif.Trace.Parser
import Verif.Trace.PropsBendErr
import Verif.Trace.PropsBends
import Verif.Trace.PropsCavities
import Verif.Trace.PropsCavityErr
import Verif.Trace.PropsCavityLength
import Verif.Trace.PropsEntries
import Verif.Trace.PropsNumbers
import Verif.Trace.PropsRounded3d
import Verif.Trace.PropsRoundedWin
import Verif.Trace.PropsTraceLine
import Verif.Trace.PropsWin
import Verif.Trace.PropsWinHandlers
import Verif.Trace.Rounded3d
import Verif.Trace.RoundedWin
import Verif.Trace.TraceWin
import Verif.Warp.Convert
import Verif.Warp.Props
import Verif.Warp.PropsConvert
import Verif.Warp.PropsRounded
import Verif.Warp.PropsRoundedSlow
import Verif.Warp.PropsText
import Verif.Warp.Rounded
import Verif.Warp.Writer
