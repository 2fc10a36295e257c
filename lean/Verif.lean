import Verif.Model.Cpp
import Verif.Model.Types
import Verif.Model.Adc
import Verif.Model.Profile
import Verif.Model.Parasitics
import Verif.Model.Mapper
import Verif.Model.IntMappers
import Verif.Model.BnnMappers
import Verif.Model.TnnMappers
import Verif.Model.ReadDisturb
import Verif.Model.Crossbar
import Verif.Model.Config
import Verif.Model.Api
import Verif.Spec
import Verif.SpecRd
import Verif.SpecApi
import Verif.SpecPar
import Verif.SpecHist
import Verif.Lemmas.Basic
import Verif.Lemmas.Blk
import Verif.Lemmas.Digits
import Verif.Lemmas.Write
import Verif.Lemmas.WriteInv
import Verif.Lemmas.DMvmInt
import Verif.Lemmas.DMvmBin
import Verif.Lemmas.Sat
import Verif.Lemmas.Shape
import Verif.Lemmas.Safe
import Verif.Lemmas.SafeMvm
import Verif.Lemmas.SafeAMvm
import Verif.Lemmas.SafeXbar
import Verif.Lemmas.Frame
import Verif.Lemmas.XDigital
import Verif.Lemmas.Refine
import Verif.Lemmas.Reject
import Verif.Lemmas.AdcQuant
import Verif.Lemmas.NoCalib
import Verif.Lemmas.AWrite
import Verif.Lemmas.AMvmVal
import Verif.Lemmas.AMvmBin
import Verif.Lemmas.AMvmExact
import Verif.Lemmas.AMvmAdc
import Verif.Lemmas.AMvmInt
import Verif.Lemmas.AMvmIntRes
import Verif.Lemmas.AMvmIntAdc
import Verif.Lemmas.XAnalog
import Verif.Lemmas.XAnalogAdc
import Verif.Lemmas.RefineA
import Verif.Lemmas.InRange
import Verif.Lemmas.Det
import Verif.Lemmas.DetMvm
import Verif.Lemmas.DetXbar
import Verif.Lemmas.RdInv
import Verif.Lemmas.RdFactor
import Verif.Lemmas.RdRuns
import Verif.Lemmas.RdHist
import Verif.Lemmas.RdCur
import Verif.Lemmas.RdExact
import Verif.Lemmas.C2cBlind
import Verif.Lemmas.ApplyInv
import Verif.Lemmas.ApplyDoc
import Verif.Lemmas.ApplyRel
import Verif.Lemmas.ApplyTwice
import Verif.Lemmas.UpdInv
import Verif.Lemmas.ApiInv
import Verif.Lemmas.SessionInv
import Verif.Lemmas.CfgInv
import Verif.Lemmas.Chain
import Verif.Lemmas.ParVal
import Verif.Lemmas.ParRun
import Verif.Lemmas.ParCur
import Verif.Lemmas.HistInv
import Verif.Lemmas.HistMvm
import Verif.Lemmas.HistRep
import Verif.Lemmas.HistFree
import Verif.Props.Ex
import Verif.Props.Digital
import Verif.Props.Safety
import Verif.Props.Adc
import Verif.Props.Currents
import Verif.Props.Analog
import Verif.Props.Repeat
import Verif.Props.ExRd
import Verif.Props.Counters
import Verif.Props.Disturb
import Verif.Props.ExApi
import Verif.Props.Config
import Verif.Props.Api
import Verif.Props.Parasitics
import Verif.Props.ParSafety
import Verif.Props.Profile
import Verif.Model.Emu
import Verif.SpecSched
import Verif.Lemmas.EmuInv
import Verif.Lemmas.Sched
import Verif.Props.Emu
import Verif.Props.Sched
import Verif.SpecFloat
import Verif.Lemmas.FloatFix
import Verif.Lemmas.FloatRun
import Verif.Props.Float
import Verif.SpecNoise
import Verif.Lemmas.Near
import Verif.Lemmas.NearBin
import Verif.Lemmas.NearXbar
import Verif.Props.Noise
import Verif.SpecProfile
import Verif.Lemmas.ProfileInv
import Verif.Props.ProfileApi
import Verif.Lemmas.NearRd
import Verif.Props.DisturbError
import Verif.SpecRound
import Verif.Lemmas.FlRun
import Verif.Lemmas.FlErr
import Verif.Lemmas.FlModes
import Verif.Lemmas.FlXbar
import Verif.Lemmas.FlIeee
import Verif.Props.Rounding
import Verif.SpecEnd
import Verif.Lemmas.EndToEnd
import Verif.Props.EndToEnd
import Verif.SpecAdcNoise
import Verif.Lemmas.RealRun
import Verif.Lemmas.RealModes
import Verif.Lemmas.AdcDev
import Verif.Props.AdcNoise
import Verif.SpecRoundAdc
import Verif.Lemmas.FlAdc
import Verif.Lemmas.FlAdc32
import Verif.Props.RoundAdc
import Verif.SpecRoundInt
import Verif.Lemmas.FlInt
import Verif.Lemmas.FlIntRes
import Verif.Lemmas.FlIntConv
import Verif.Lemmas.FlIntXbar
import Verif.Lemmas.FlIntRun
import Verif.Lemmas.FlIntExec
import Verif.Lemmas.FlIntIeee
import Verif.Lemmas.FlIntAbs
import Verif.Props.RoundInt
import Verif.Model.Getters
import Verif.Model.Host
import Verif.Model.Numpy
import Verif.SpecGet
import Verif.Lemmas.GetInv
import Verif.Props.Getters
import Verif.Model.SimpleHist
import Verif.SpecSimple
import Verif.Lemmas.SimpleHist
import Verif.Props.SimpleHist
import Verif.SpecWear
import Verif.Lemmas.Wear
import Verif.Props.Wear
import Verif.SpecRdTotal
import Verif.Lemmas.RdTotal
import Verif.Props.DisturbTotal
import Verif.SpecWire
import Verif.Lemmas.WireBin
import Verif.Lemmas.WireOrig
import Verif.Lemmas.WireRun
import Verif.Props.Wires
import Verif.SpecSame
import Verif.Lemmas.SameCfg
import Verif.Props.SameFile
import Verif.SpecLoad
import Verif.Lemmas.Load
import Verif.Props.Load
import Verif.SpecMod
import Verif.Lemmas.IntMod
import Verif.Props.IntRange
import Verif.Lemmas.AMvmAny
import Verif.Props.InputRange
import Verif.SpecUpdate
import Verif.Lemmas.Same
import Verif.Props.Update
import Verif.SpecSplit
import Verif.SpecBuild
import Verif.Lemmas.Split
import Verif.Lemmas.Build
import Verif.Lemmas.Patch
import Verif.Props.Split
import Verif.Props.Build
import Verif.SpecShipped
import Verif.Lemmas.Shipped
import Verif.Lemmas.ShippedInt
import Verif.Lemmas.ShippedLoad
import Verif.Props.Shipped
import Verif.Props.Patch
import Verif.SpecVar
import Verif.Lemmas.ZeroVar
import Verif.Props.Variation
import Verif.SpecWireInt
import Verif.Lemmas.WireInt
import Verif.Lemmas.WireIntRun
import Verif.Props.WiresInt
import Verif.SpecProgram
import Verif.Lemmas.Program
import Verif.Props.Program
import Verif.SpecSaturate
import Verif.Lemmas.Saturate
import Verif.Lemmas.SaturateFl
import Verif.Lemmas.SaturateShipped
import Verif.Props.Saturate
import Verif.SpecOob
import Verif.Lemmas.Oob
import Verif.Props.Oob
import Verif.SpecRdTest
import Verif.Lemmas.RdTest
import Verif.Props.RdTest
import Verif.SpecReading
import Verif.SpecWireTest
import Verif.SpecSource
import Verif.SpecKeys
import Verif.SpecGetTest
import Verif.SpecReturn
import Verif.SpecAlphabet
import Verif.SpecNumpy
import Verif.SpecLocal
import Verif.SpecUnits
import Verif.SpecRows
import Verif.SpecTwin
import Verif.SpecRank
import Verif.SpecColumns
import Verif.SpecOdd
import Verif.SpecTiles
import Verif.SpecPlace
import Verif.SpecPad
import Verif.SpecFlip
import Verif.SpecRelated
import Verif.SpecMirror
import Verif.SpecWiden
import Verif.SpecThick
import Verif.SpecBlank
import Verif.SpecUpdTest
import Verif.SpecEmu
import Verif.SpecAdcTest
import Verif.Lemmas.Reading
import Verif.Lemmas.WireTest
import Verif.Lemmas.Source
import Verif.Lemmas.Idem
import Verif.Lemmas.Keys
import Verif.Lemmas.GetTest
import Verif.Lemmas.WriteIff
import Verif.Lemmas.MvmIff
import Verif.Lemmas.BinMod
import Verif.Lemmas.AWriteIff
import Verif.Lemmas.Seen
import Verif.Lemmas.Numpy
import Verif.Lemmas.AMvmIff
import Verif.Lemmas.Local
import Verif.Lemmas.Units
import Verif.Lemmas.UnitsMvm
import Verif.Lemmas.UnitsXbar
import Verif.Lemmas.UnitsRun
import Verif.Lemmas.UnitsRnd
import Verif.Lemmas.Rows
import Verif.Lemmas.RowsMvm
import Verif.Lemmas.RowsCur
import Verif.Lemmas.RowsAna
import Verif.Lemmas.RowsWrite
import Verif.Lemmas.RowsXbar
import Verif.Lemmas.RowsRd
import Verif.Lemmas.Twin
import Verif.Lemmas.TwinMvm
import Verif.Lemmas.TwinCur
import Verif.Lemmas.TwinAna
import Verif.Lemmas.TwinWrite
import Verif.Lemmas.TwinXbar
import Verif.Lemmas.TwinRd
import Verif.Lemmas.Rank
import Verif.Lemmas.Columns
import Verif.Lemmas.Odd
import Verif.Lemmas.Tiles
import Verif.Lemmas.Place
import Verif.Lemmas.Pad
import Verif.Lemmas.Flip
import Verif.Lemmas.Related
import Verif.Lemmas.Mirror
import Verif.Lemmas.Widen
import Verif.Lemmas.Thick
import Verif.Lemmas.Blank
import Verif.Lemmas.UpdTest
import Verif.Lemmas.EmuRun
import Verif.Lemmas.AdcTest
import Verif.Lemmas.AdcTestFile
import Verif.Props.Reading
import Verif.Props.WireTest
import Verif.Props.Source
import Verif.Props.Keys
import Verif.Props.GetTest
import Verif.Props.Return
import Verif.Props.Alphabet
import Verif.Props.ReturnA
import Verif.Props.Seen
import Verif.Props.Numpy
import Verif.Props.ReturnM
import Verif.Props.Local
import Verif.Props.Units
import Verif.Props.Rows
import Verif.Props.Twin
import Verif.Props.Rank
import Verif.Props.Columns
import Verif.Props.Odd
import Verif.Props.Tiles
import Verif.Props.Place
import Verif.Props.Pad
import Verif.Props.Flip
import Verif.Props.Related
import Verif.Props.Mirror
import Verif.Props.Widen
import Verif.Props.Thick
import Verif.Props.Blank
import Verif.Props.UpdTest
import Verif.Props.EmuRun
import Verif.Props.AdcTest
