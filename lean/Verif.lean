import Verif.Heap.Vocabulary
import Verif.Props.Axis
import Verif.Props.Relation
import Verif.Props.Arithmetic
import Verif.Props.Convolution
import Verif.Props.Spectral
import Verif.Props.Phase
import Verif.Props.FourierSum
import Verif.Props.SignalShift
import Verif.Props.HeapAxis
import Verif.Props.HeapSharing
import Verif.Props.HeapCache
import Verif.Props.HeapConfig
import Verif.Props.HeapSweep
import Verif.Props.HeapGenerator
import Verif.Heap.Aprior
import Verif.Props.HeapAprior
import Verif.Props.HeapRefine
import Verif.Props.Sweep
import Verif.Props.Spectrogram
import Verif.Props.Prepared
import Verif.Props.FreqTime
import Verif.Props.Aprior
import Verif.Props.Codes
import Verif.Props.Correction
import Verif.Props.ConvSpectrum
import Verif.Props.Envelope
import Verif.Props.CodeConv
import Verif.Props.SpectrumSignal
import Verif.Props.SpectrumRound
import Verif.Props.Reverse
import Verif.Props.SignalPhase
import Verif.Props.Dwell
import Verif.Props.HeapEmd
import Verif.Props.HeapArray
import Verif.Props.HeapFourier
import Verif.Props.HeapFrame
import Verif.Props.HeapMixed
import Verif.Props.HeapPairs
import Verif.Props.Unfit
import Verif.Props.DefaultSpectrogram
import Verif.Props.FloatAxis
import Verif.Props.FloatSelect
import Verif.Props.FloatSizes
import Verif.Props.MSeq
import Verif.Model.Iteration
import Verif.Props.HeapClasses
import Verif.Props.HeapGivenAxis
import Verif.Props.Iteration
import Verif.Props.AprDescription
import Verif.Props.Moved
import Verif.Props.FloatInterp
import Verif.Props.FloatValues
import Verif.Props.FloatItem
import Verif.Props.FloatSweep
import Verif.Props.FloatSpectral
import Verif.Props.Units
import Verif.Props.UnitsSweep
import Verif.Props.Shuffle
import Verif.Validation
import Verif.Tutorial
import Verif.Props.Scaling
import Verif.Props.Loudness
import Verif.Props.Windows
import Verif.Model.SignalSpectra
import Verif.Props.AmplitudeSpectrum
import Verif.Props.Exceptions
import Verif.Props.Extremes
import Verif.Props.Refinement
import Verif.Props.CommonGrid
import Verif.Props.FloatCodes
import Verif.Heap.Prepared
import Verif.Props.HeapPrepared
import Verif.Heap.RefinePrepared
import Verif.Heap.RefineLibrary
import Verif.Props.HeapLibrary
import Verif.Props.HeapDwell
import Verif.Heap.RefineSignals
import Verif.Props.HeapSignals
import Verif.Props.SignalCodes
import Verif.Props.ShiftLaws
import Verif.Props.Accuracy
import Verif.Props.SweepAccuracy
import Verif.Props.Modulation
import Verif.Props.ConvAlgebra
import Verif.Props.SweepLaws
import Verif.Props.CodeCorrelation
import Verif.Heap.Session
import Verif.Props.HeapSession
import Verif.Props.HeapSessionKinds
import Verif.Model.IntSamples
import Verif.Props.IntSamples
import Verif.Props.BoolSamples
import Verif.Props.Echoes
import Verif.Props.Backward
import Verif.Props.BackwardRelations
import Verif.Model.Special
import Verif.Props.Special
import Verif.Props.SpecialRelations
import Verif.Props.Aliasing
import Verif.Props.SpectrumConvolve
import Verif.Props.CalculusSpectrum
import Verif.Props.HeapText
import Verif.Props.HeapBalance
import Verif.Props.Powers
import Verif.Props.SpecialPowers
import Verif.Props.ComplexAxis
import Verif.Props.ComplexSamples
import Verif.Props.Tables
import Verif.Props.Stability
import Verif.Props.Reclip
import Verif.Props.FloatRoundTrip
import Verif.Props.FloatAlign
import Verif.Props.FloatSpectrumBack
import Verif.Props.TimeReversal
import Verif.Props.FloatShifts
import Verif.Props.ComplexImage
import Verif.Props.SineWaves
import Verif.Props.Leakage
import Verif.Props.Integrals
import Verif.Props.SweepEnergy
import Verif.Props.EnergyPeak
import Verif.Props.ExcTexts
import Verif.Props.HelpTypes
import Verif.Props.TaperEnergy
import Verif.Props.FlatCode
import Verif.Props.Harmonics
import Verif.Props.CombCode
import Verif.Props.SameCarrier
import Verif.Props.Superpose
