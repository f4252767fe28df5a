import Verif.NumPy
import Verif.NumPyLemmas
import Verif.Index.Model
import Verif.Index.Spec
import Verif.Index.Lemmas
import Verif.Index.Closed
import Verif.Index.CorrLemmas
import Verif.Index.Blocks
import Verif.Index.Props
import Verif.Bustypes.Model
import Verif.Bustypes.Props
import Verif.Cost.Model
import Verif.Cost.Spec
import Verif.Cost.Lemmas
import Verif.Cost.ModLemmas
import Verif.Cost.ModRow
import Verif.Cost.AyLemmas
import Verif.Cost.Props
import Verif.Network.Model
import Verif.Network.Spec
import Verif.Network.Lemmas
import Verif.Network.Props
import Verif.Pfsoln.Model
import Verif.Pfsoln.Props
import Verif.OpfModel.Model
import Verif.OpfModel.Spec
import Verif.OpfModel.Lemmas
import Verif.OpfModel.Assembly
import Verif.OpfModel.CostAssembly
import Verif.OpfModel.Props
import Verif.OpfModel.Report
import Verif.Pips.Model
import Verif.Pips.Props
import Verif.Pips.Split
import Verif.Pips.SplitProps
import Verif.Dispatch
import Verif.OpfCost.DcModel
import Verif.OpfCost.DcProps
import Verif.OpfCost.AcModel
import Verif.OpfCost.AcLemmas
import Verif.OpfCost.AcProps
import Verif.Load.Model
import Verif.Load.Props
import Verif.Derivs.Model
import Verif.Derivs.Spec
import Verif.Derivs.Lemmas
import Verif.Derivs.Props
import Verif.Solvers.Model
import Verif.Solvers.Lemmas
import Verif.Solvers.Props
import Verif.Solvers.NewtonStep
import Verif.Runpf.Model
import Verif.Runpf.Props
import Verif.Runpf.Zero
import Verif.Userfcn.Model
import Verif.Userfcn.Props
import Verif.CaseIO.Model
import Verif.CaseIO.Props
import Verif.Uopf.Model
import Verif.Uopf.Props
import Verif.Constr.Model
import Verif.Constr.Lemmas
import Verif.Constr.Props
import Verif.Iflims.Model
import Verif.Iflims.Lemmas
import Verif.Iflims.Props
import Verif.Reserves.Model
import Verif.Reserves.Props
import Verif.Dcline.Model
import Verif.Dcline.Props
import Verif.Cpf.Model
import Verif.Cpf.Props
import Verif.Cpf.Trace
import Verif.Cpf.Predictor
import Verif.Cpf.Witness
import Verif.Mupq.Model
import Verif.Mupq.Props
import Verif.Util.Model
import Verif.Util.Props
import Verif.OpfNl.Model
import Verif.OpfNl.Spec
import Verif.OpfNl.Lemmas
import Verif.OpfNl.Props
import Verif.OpfNl.HessLemmas
import Verif.OpfNl.HessProps
import Verif.Pips.Full
import Verif.Pips.FullLemmas
import Verif.Pips.FullProps
import Verif.Pips.ConvexProps
import Verif.Pips.CompProps
import Verif.Opf.Solve
import Verif.Opf.SolveLemmas
import Verif.Opf.DcModel
import Verif.Opf.DcLemmas
import Verif.Opf.DcProps
import Verif.Opf.AcModel
import Verif.Opf.AcLemmas
import Verif.Opf.AcProps
import Verif.Opf.CompProps
import Verif.Opf.DcCostModel
import Verif.Opf.DcCostLemmas
import Verif.Opf.DcCostProps
import Verif.Opf.MarketProps
import Verif.Opf.RunModel
import Verif.Opf.RunSpec
import Verif.Opf.RunLemmas
import Verif.Opf.RunProps
import Verif.Opf.EconModel
import Verif.Opf.EconSpec
import Verif.Opf.EconLemmas
import Verif.Opf.EconProps
import Verif.Opf.EquilProps
import Verif.Opf.ShadowProps
import Verif.Opf.PriceSpec
import Verif.Opf.PriceProps
import Verif.Opf.ArgsModel
import Verif.Opf.ArgsProps
import Verif.Index.FieldModel
import Verif.Index.FieldLemmas
import Verif.Index.FieldProps
import Verif.Network.Regular
import Verif.Runpf.Core
import Verif.Runpf.TableModel
import Verif.Runpf.TableSpec
import Verif.Runpf.TableLemmas
import Verif.Runpf.TableCore
import Verif.Runpf.TableProps
import Verif.Runpf.TableDc
import Verif.Network.FdMatrix
import Verif.Network.FdShift
import Verif.Solvers.FdStep
import Verif.Runpf.FdProps
import Verif.Cpf.Corrector
import Verif.Cpf.Kept
import Verif.Cpf.TableModel
import Verif.Cpf.TableSpec
import Verif.Cpf.TableLemmas
import Verif.Cpf.TableMix
import Verif.Cpf.TableRun
import Verif.Cpf.TableFlow
import Verif.Cpf.TableProps
import Verif.Cpf.TableWitness
import Verif.Printpf.Model
import Verif.Printpf.Spec
import Verif.Printpf.Lemmas
import Verif.Printpf.Areas
import Verif.Printpf.Props
import Verif.Printpf.RunProps
import Verif.Printpf.FigureSpec
import Verif.Printpf.FigureProps
import Verif.Printpf.Examples
import Verif.Ipopt.Model
import Verif.Ipopt.Lemmas
import Verif.Ipopt.Props
import Verif.Ipopt.SolverModel
import Verif.Ipopt.SolverLemmas
import Verif.Ipopt.SolverProps
import Verif.Opf.ResModel
import Verif.Opf.ResBlocks
import Verif.Opf.ResKkt
import Verif.Opf.ResInner
import Verif.Opf.ResSpec
import Verif.Opf.ResTables
import Verif.Opf.ResLemmas
import Verif.Opf.ResPoint
import Verif.Opf.ResProps
import Verif.Opf.ResPriceProps
import Verif.Opf.ResRuns
import Verif.Opf.UserModel
import Verif.Opf.UserBlocks
import Verif.Opf.UserSpec
import Verif.Opf.UserOrder
import Verif.Opf.UserLemmas
import Verif.Opf.UserPoint
import Verif.Opf.UserProps
import Verif.Opf.UserRuns
import Verif.Opf.Accept
import Verif.Opf.AcceptProps
import Verif.Opf.ExecModel
import Verif.Opf.ExecLemmas
import Verif.Opf.ExecSpec
import Verif.Opf.ExecPack
import Verif.Opf.ExecProps
import Verif.Opf.UserCases
import Verif.Opf.AddModel
import Verif.Opf.AddLemmas
import Verif.Opf.IfModel
import Verif.Opf.IfSpec
import Verif.Opf.IfLemmas
import Verif.Opf.IfRuns
import Verif.Opf.IfProps
import Verif.Opf.IfCases
import Verif.Opf.CurveModel
import Verif.Opf.CurveLemmas
import Verif.Opf.CurveSpec
import Verif.Opf.CurveProps
import Verif.Opf.CurveCases
import Verif.Opf.CurvePrice
import Verif.Opf.CurvePriceProps
import Verif.DType.Model
import Verif.DType.PfModel
import Verif.DType.PfLemmas
import Verif.DType.PfSpec
import Verif.DType.PfProps
import Verif.DType.PfCases
import Verif.DType.CostModel
import Verif.DType.CostLemmas
import Verif.DType.CostSpec
import Verif.DType.CostProps
import Verif.DType.CostCases
import Verif.SaveText.NumModel
import Verif.SaveText.NumLemmas
import Verif.SaveText.NumRound
import Verif.SaveText.NumRead
import Verif.SaveText.PyModel
import Verif.SaveText.Model
import Verif.SaveText.LexLemmas
import Verif.SaveText.ParseLemmas
import Verif.SaveText.FileLemmas
import Verif.SaveText.CaseLemmas
import Verif.SaveText.Spec
import Verif.SaveText.TableLemmas
import Verif.SaveText.RoundTrip
import Verif.SaveText.Props
import Verif.SaveText.Stable
import Verif.SaveText.Cases
import Verif.Loadcase.Model
import Verif.Loadcase.Spec
import Verif.Loadcase.Lemmas
import Verif.Loadcase.Props
import Verif.Loadcase.Codes
import Verif.Loadcase.Cases
import Verif.Caller.Model
import Verif.Caller.Frame
import Verif.Caller.Opf
import Verif.Caller.Props
import Verif.Caller.Cases
import Verif.SaveMat.Model
import Verif.SaveMat.Lemmas
import Verif.SaveMat.Round
import Verif.SaveMat.Props
import Verif.SaveMat.Cases
import Verif.ExtReport.Model
import Verif.ExtReport.Props
import Verif.ExtReport.Cases
import Verif.Cli.Model
import Verif.Cli.Spec
import Verif.Cli.Lemmas
import Verif.Cli.Props
import Verif.UnitOpf.Props
import Verif.Qps.Props
import Verif.Opf.StartProps
import Verif.Opf.AcUserCases
import Verif.Opf.AcAccept
import Verif.Opf.AcFeasCases
import Verif.Pips.SensProps
import Verif.Opf.SensLemmas
import Verif.Opf.SensSpec
import Verif.Opf.SensProps
import Verif.Opf.SensCases
import Verif.Opf.RentSpec
import Verif.Opf.RentProps
import Verif.Opf.RentCases
import Verif.Runpf.AgainCore
import Verif.Runpf.AgainLemmas
import Verif.Runpf.AgainRuns
import Verif.Runpf.AgainProps
import Verif.Runpf.AgainCases
import Verif.Index.NameSpec
import Verif.Index.NameLemmas
import Verif.Opf.NameSpec
import Verif.Opf.NameProps
import Verif.Runpf.OrderSpec
import Verif.Runpf.OrderLemmas
import Verif.Runpf.OrderProps
import Verif.Runpf.LinearSpec
import Verif.Runpf.LinearProps
import Verif.Runpf.InjectSpec
import Verif.Runpf.InjectProps
import Verif.Index.StripSpec
import Verif.Index.StripLemmas
import Verif.Opf.StripSpec
import Verif.Opf.StripProps
import Verif.Runpf.TurnSpec
import Verif.Runpf.TurnLemmas
import Verif.Runpf.TurnProps
import Verif.Runpf.ScaleSpec
import Verif.Runpf.ScaleLemmas
import Verif.Runpf.ScaleProps
import Verif.Runpf.SpinSpec
import Verif.Runpf.SpinSolvers
import Verif.Runpf.SpinLemmas
import Verif.Runpf.SpinProps
import Verif.Runpf.GuessProps
import Verif.Runpf.LoadProps
import Verif.Runpf.LimitProps
import Verif.Runpf.OnOffProps
import Verif.Runpf.TypeProps
