import Verif.Num
import Verif.Law
import Verif.Uniform
import Verif.Prob.Model
import Verif.Prob.Spec
import Verif.Prob.Lemmas
import Verif.Prob.MultiLemmas
import Verif.Prob.MultiRefine
import Verif.Prob.Props
import Verif.Prob.JacProps
import Verif.Ensemble.Model
import Verif.Ensemble.Lemmas
import Verif.Ensemble.Models
import Verif.Ensemble.LikeLemmas
import Verif.Ensemble.Props
import Verif.Ensemble.SampleLemmas
import Verif.Ensemble.SampleProps
import Verif.Ensemble.Query
import Verif.Ensemble.QueryLemmas
import Verif.Ensemble.QueryProps
import Verif.Ensemble.Method
import Verif.Ensemble.MethodProps
import Verif.NumOrder
import Verif.Solver.Model
import Verif.Solver.Spec
import Verif.Solver.Lemmas
import Verif.Solver.Props
import Verif.Solver.Fit
import Verif.Solver.Density
import Verif.Solver.Newton
import Verif.Solver.FitLemmas
import Verif.Solver.FitProps
import Verif.Graph.Model
import Verif.Graph.Lemmas
import Verif.Graph.BuildLemmas
import Verif.Graph.Props
import Verif.Graph.MultiLemmas
import Verif.Graph.MultiProps
import Verif.Graph.Query
import Verif.Graph.QueryProps
import Verif.Random.Model
import Verif.Random.Props
import Verif.Random.Query
import Verif.Random.QueryProps
import Verif.Coarse
import Verif.Cond.Model
import Verif.Cond.Seq
import Verif.Cond.Lemmas
import Verif.Cond.SampleLemmas
import Verif.Cond.Props
import Verif.Cond.MeanLemmas
import Verif.Cond.MeanProps
import Verif.Cond.LikeLemmas
import Verif.Cond.LikeProps
import Verif.Cond.CrembProps
import Verif.Lib.Model
import Verif.Lib.Lemmas
import Verif.Lib.Props
import Verif.Lib.GraphProps
import Verif.Convert.Model
import Verif.Convert.Props
import Verif.Validate.Model
import Verif.Validate.Lemmas
import Verif.Validate.Props
import Verif.Validate.RandomProps
import Verif.Validate.MultiProps
import Verif.Spark.Model
import Verif.Spark.Lemmas
import Verif.Spark.LoopLemmas
import Verif.Spark.Props
import Verif.Spark.ConfProps
import Verif.Layer.Model
import Verif.Layer.Lemmas
import Verif.Layer.DegLemmas
import Verif.Layer.Props
import Verif.Ensemble.ModelProps
import Verif.Layer.LikeLemmas
import Verif.Layer.SampleLemmas
import Verif.Layer.LawProps
import Verif.Solver.Total
import Verif.Cond.Ratio
import Verif.Cond.Fit
import Verif.Cond.FitLemmas
import Verif.Cond.FitProps
import Verif.Solver.Report
import Verif.Solver.FitInput
import Verif.Layer.FitProps
import Verif.Random.ListProps
import Verif.Graph.Cached
import Verif.Graph.CachedProps
import Verif.Graph.Networkx
import Verif.Graph.NetworkxProps
import Verif.Graph.Warn
import Verif.Graph.GroupProps
import Verif.Layer.Method
import Verif.Layer.MethodProps
import Verif.Sampled.Model
import Verif.Sampled.Props
import Verif.Sampled.MultiProps
import Verif.Sampled.MeanLemmas
import Verif.Sampled.MeanProps
import Verif.Sampled.WeightProps
import Verif.Layer.Cached
import Verif.Layer.CachedLemmas
import Verif.Layer.CachedProps
import Verif.Validate.Spark
import Verif.Validate.SparkProps
import Verif.Flow.Model
import Verif.Flow.Lemmas
import Verif.Flow.Props
import Verif.Flow.Multi
import Verif.Flow.MultiLemmas
import Verif.Flow.MultiProps
import Verif.Spark.Method
import Verif.Spark.MethodProps
import Verif.Spark.MultiMethodProps
import Verif.Spark.MultiSampleProps
import Verif.Spark.Query
import Verif.Spark.QueryLemmas
import Verif.Spark.QueryProps
import Verif.Random.Sampled
import Verif.Random.SampledProps
import Verif.Flow.Random
import Verif.Flow.RandomProps
import Verif.Mle.Lemmas
import Verif.Mle.Props
import Verif.Mle.FlowProps
import Verif.Cond.Query
import Verif.Cond.QueryLemmas
import Verif.Cond.QueryProps
import Verif.Graph.Unweighted
import Verif.Graph.UnweightedLemmas
import Verif.Graph.UnweightedProps
import Verif.Cond.ScaleLemmas
import Verif.Cond.ScaleProps
import Verif.Columns.Model
import Verif.Columns.Lemmas
import Verif.Columns.Props
import Verif.Columns.GraphProps
import Verif.Relabel.Lemmas
import Verif.Relabel.Model
import Verif.Relabel.Props
import Verif.Relabel.LawProps
import Verif.Relabel.Label
import Verif.Relabel.Cond
import Verif.Relabel.CondProps
import Verif.Round.Arith
import Verif.Round.Model
import Verif.Round.Lemmas
import Verif.Round.Loops
import Verif.Round.Binary64
import Verif.Round.Union
import Verif.Round.Accuracy
import Verif.Round.Props
import Verif.Round.AccProps
import Verif.Round.DegLemmas
import Verif.Round.DegProps
import Verif.Round.AllLemmas
import Verif.Round.AllSums
import Verif.Round.AllProps
import Verif.Round.LikeLemmas
import Verif.Round.LikeProps
import Verif.Round.Solver
import Verif.Round.SolverLemmas
import Verif.Round.Newton
import Verif.Round.Jac
import Verif.Round.JacSum
import Verif.Round.FitSetup
import Verif.Round.FitProps
import Verif.Round.Grid
import Verif.Round.SampleProps
import Verif.Ensemble.Repeat
import Verif.Ensemble.RepeatLemmas
import Verif.Ensemble.RepeatProps
import Verif.Ensemble.CoupleProps
import Verif.Ensemble.StreamLemmas
import Verif.Ensemble.Weighted
import Verif.Ensemble.WeightedLemmas
import Verif.Ensemble.WeightedProps
import Verif.Solver.NestedProps
import Verif.Solver.ScaleLemmas
import Verif.Solver.UnitsProps
import Verif.Solver.CongrLemmas
import Verif.Reverse.Props
import Verif.Reverse.FitProps
import Verif.Reverse.FlowProps
import Verif.Solver.RateProps
import Verif.Reverse.LayerProps
import Verif.Score.Lemmas
import Verif.Score.Props
import Verif.Score.EntLemmas
import Verif.Score.EntProps
import Verif.Layer.Stream
import Verif.Layer.StreamLemmas
import Verif.Layer.StreamProps
import Verif.Layer.StreamMeanProps
import Verif.Graph.Table
import Verif.Graph.TableProps
import Verif.Graph.TableCaseProps
import Verif.Alias.Model
import Verif.Alias.Lemmas
import Verif.Alias.CallLemmas
import Verif.Alias.PutLemmas
import Verif.Alias.Props
import Verif.Round.NNModel
import Verif.Round.NNLemmas
import Verif.Round.NNProps
import Verif.Round.NNLayerProps
import Verif.Round.NNUnionProps
import Verif.Round.NNFitLayerProps
import Verif.Round.LikeFitProps
import Verif.Round.RandWeightProps
import Verif.Round.RandModel
import Verif.Round.RandLemmas
import Verif.Round.RandSum
import Verif.Round.RandProps
import Verif.Round.LayerModel
import Verif.Round.LayerLemmas
import Verif.Round.LayerProps
import Verif.Round.LayerDense
import Verif.Round.LayerDenseProps
import Verif.Round.LikeLayer
import Verif.Round.LikeLayerProps
import Verif.Round.LabelFit
import Verif.Round.LabelFitProps
import Verif.Round.LabelDense
import Verif.Round.LabelDenseProps
import Verif.Round.SharedModel
import Verif.Round.SharedLemmas
import Verif.Round.SharedProps
