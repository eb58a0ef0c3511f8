import Verif.Base.Panic
import Verif.Model.Alloc
import Verif.Model.Args
import Verif.Model.BruteForce
import Verif.Model.Bytes
import Verif.Model.Cli
import Verif.Model.Coin
import Verif.Model.Distance
import Verif.Model.Enumerator
import Verif.Model.Estimate
import Verif.Model.Exact
import Verif.Model.FFT
import Verif.Model.Float
import Verif.Model.FloatBrute
import Verif.Model.FloatCoin
import Verif.Model.FloatFFT
import Verif.Model.FloatHash
import Verif.Model.FloatIndex
import Verif.Model.FloatNormal
import Verif.Model.FloatPlan
import Verif.Model.FloatProfile
import Verif.Model.FloatSearch
import Verif.Model.FloatWhole
import Verif.Model.Graph
import Verif.Model.HashValue
import Verif.Model.Hasher
import Verif.Model.Ieee
import Verif.Model.IeeeExact
import Verif.Model.Index
import Verif.Model.Iterator
import Verif.Model.Load
import Verif.Model.MotifTopK
import Verif.Model.Normal
import Verif.Model.Observe
import Verif.Model.Overlap
import Verif.Model.Penguin
import Verif.Model.PyModule
import Verif.Model.Python
import Verif.Model.Repetition
import Verif.Model.Sampling
import Verif.Model.Sax
import Verif.Model.Scrimp
import Verif.Model.Search
import Verif.Model.SearchLog
import Verif.Model.Sort
import Verif.Model.Timeseries
import Verif.Model.Tools
import Verif.Model.TopK
import Verif.Proofs.Answers
import Verif.Proofs.Args
import Verif.Proofs.Begin
import Verif.Proofs.BruteForce
import Verif.Proofs.BruteForceMin
import Verif.Proofs.BruteForceMotifs
import Verif.Proofs.BruteForceRun
import Verif.Proofs.Bytes
import Verif.Proofs.Canon
import Verif.Proofs.Coin
import Verif.Proofs.CoinTotal
import Verif.Proofs.Distance
import Verif.Proofs.Draws
import Verif.Proofs.Eighth
import Verif.Proofs.Enumerator
import Verif.Proofs.EnumeratorCalls
import Verif.Proofs.Erf
import Verif.Proofs.Estimate
import Verif.Proofs.Exact
import Verif.Proofs.ExampleSearch
import Verif.Proofs.Extents
import Verif.Proofs.FFT
import Verif.Proofs.Failure
import Verif.Proofs.Flip
import Verif.Proofs.Float
import Verif.Proofs.Float64
import Verif.Proofs.FloatBegin
import Verif.Proofs.FloatBrute
import Verif.Proofs.FloatCoin
import Verif.Proofs.FloatDist
import Verif.Proofs.FloatExact
import Verif.Proofs.FloatFFT
import Verif.Proofs.FloatHash
import Verif.Proofs.FloatIndex
import Verif.Proofs.FloatLsh
import Verif.Proofs.FloatMotiflets
import Verif.Proofs.FloatNormal
import Verif.Proofs.FloatProfile
import Verif.Proofs.FloatRoll
import Verif.Proofs.FloatSame
import Verif.Proofs.FloatSampling
import Verif.Proofs.FloatSums
import Verif.Proofs.FloatThreshold
import Verif.Proofs.FloatTotal
import Verif.Proofs.Fuel
import Verif.Proofs.Gauss
import Verif.Proofs.Graph
import Verif.Proofs.GraphQuery
import Verif.Proofs.HashValue
import Verif.Proofs.Hasher
import Verif.Proofs.Ieee
import Verif.Proofs.IeeeDist
import Verif.Proofs.IeeeExact
import Verif.Proofs.IeeeRound
import Verif.Proofs.IeeeStats
import Verif.Proofs.Index
import Verif.Proofs.Iterator
import Verif.Proofs.Lsh
import Verif.Proofs.LshBytes
import Verif.Proofs.Pairs
import Verif.Proofs.PolyQ
import Verif.Proofs.Profile
import Verif.Proofs.Progress
import Verif.Proofs.PyModule
import Verif.Proofs.Python
import Verif.Proofs.Recall
import Verif.Proofs.Repetition
import Verif.Proofs.Repro
import Verif.Proofs.ReproIndex
import Verif.Proofs.ReproRun
import Verif.Proofs.ReproStart
import Verif.Proofs.Rescale
import Verif.Proofs.RescaleFloat
import Verif.Proofs.Sampling
import Verif.Proofs.Sax
import Verif.Proofs.Scrimp
import Verif.Proofs.Search
import Verif.Proofs.SearchLog
import Verif.Proofs.Sort
import Verif.Proofs.SortMerge
import Verif.Proofs.Start
import Verif.Proofs.Stats
import Verif.Proofs.TopK
import Verif.Proofs.Total
import Verif.Props.C01
import Verif.Props.C02
import Verif.Props.C08
import Verif.Props.C100
import Verif.Props.C101
import Verif.Props.C102
import Verif.Props.C109
import Verif.Props.C11
import Verif.Props.C113
import Verif.Props.C116
import Verif.Props.C119
import Verif.Props.C119Sampled
import Verif.Props.C120
import Verif.Props.C121
import Verif.Props.C122
import Verif.Props.C123
import Verif.Props.C124
import Verif.Props.C125
import Verif.Props.C126
import Verif.Props.C127
import Verif.Props.C128
import Verif.Props.C129
import Verif.Props.C13
import Verif.Props.C130
import Verif.Props.C132
import Verif.Props.C133
import Verif.Props.C134
import Verif.Props.C135
import Verif.Props.C136
import Verif.Props.C139
import Verif.Props.C140
import Verif.Props.C141
import Verif.Props.C142
import Verif.Props.C143
import Verif.Props.C144
import Verif.Props.C145
import Verif.Props.C146
import Verif.Props.C147
import Verif.Props.C148
import Verif.Props.C149
import Verif.Props.C15
import Verif.Props.C150
import Verif.Props.C151
import Verif.Props.C152
import Verif.Props.C153
import Verif.Props.C154
import Verif.Props.C155
import Verif.Props.C156
import Verif.Props.C157
import Verif.Props.C158
import Verif.Props.C159
import Verif.Props.C159Sampled
import Verif.Props.C160
import Verif.Props.C160Search
import Verif.Props.C161
import Verif.Props.C162
import Verif.Props.C163
import Verif.Props.C164
import Verif.Props.C166
import Verif.Props.C168
import Verif.Props.C17
import Verif.Props.C170
import Verif.Props.C171
import Verif.Props.C172
import Verif.Props.C173
import Verif.Props.C174
import Verif.Props.C175
import Verif.Props.C176
import Verif.Props.C177
import Verif.Props.C178
import Verif.Props.C179
import Verif.Props.C180
import Verif.Props.C21
import Verif.Props.C24
import Verif.Props.C30
import Verif.Props.C31
import Verif.Props.C33
import Verif.Props.C34
import Verif.Props.C37
import Verif.Props.C42
import Verif.Props.C45
import Verif.Props.C47
import Verif.Props.C54
import Verif.Props.C56
import Verif.Props.C57
import Verif.Props.C63
import Verif.Props.C66
import Verif.Props.C68
import Verif.Props.C70
import Verif.Props.C71
import Verif.Props.C74
import Verif.Props.C79
import Verif.Props.C81
import Verif.Props.C91
import Verif.Props.C94
import Verif.Props.C96
import Verif.Props.C98
import Verif.Props.C99
import Verif.Props.CliDemo
import Verif.Props.CoinDemo
import Verif.Props.CoinHeads
import Verif.Props.DefaultDemo
import Verif.Props.Demo
import Verif.Props.FloatDemo
import Verif.Props.PythonDemo
import Verif.Props.RoundingDemo
import Verif.Spec.Args
import Verif.Spec.Border
import Verif.Spec.Bytes
import Verif.Spec.Collisions
import Verif.Spec.Command
import Verif.Spec.Csv
import Verif.Spec.Dataset
import Verif.Spec.Diameter
import Verif.Spec.Eighth
import Verif.Spec.Failure
import Verif.Spec.FloatFound
import Verif.Spec.FloatGuarantee
import Verif.Spec.FloatProbability
import Verif.Spec.Found
import Verif.Spec.Greedy
import Verif.Spec.Guarantee
import Verif.Spec.Hash
import Verif.Spec.Index
import Verif.Spec.Load
import Verif.Spec.Log
import Verif.Spec.Lsh
import Verif.Spec.Margin
import Verif.Spec.Motiflet
import Verif.Spec.Neighbourhood
import Verif.Spec.Normal
import Verif.Spec.Parameters
import Verif.Spec.Penguin
import Verif.Spec.Planner
import Verif.Spec.Profile
import Verif.Spec.Range
import Verif.Spec.Recall
import Verif.Spec.Rounding
import Verif.Spec.SampledGuarantee
import Verif.Spec.Sampling
import Verif.Spec.Sax
import Verif.Spec.Search
import Verif.Spec.SearchLog
import Verif.Spec.Series
import Verif.Spec.Stats
import Verif.Spec.Transform
import Verif.Spec.Width
