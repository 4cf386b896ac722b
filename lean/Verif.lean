import Verif.Lemmas.Agree
import Verif.Lemmas.Async
import Verif.Lemmas.AsyncData
import Verif.Lemmas.AsyncFits
import Verif.Lemmas.AsyncHeader
import Verif.Lemmas.AsyncProg
import Verif.Lemmas.AsyncSync
import Verif.Lemmas.AsyncWalk
import Verif.Lemmas.Basic
import Verif.Lemmas.Card
import Verif.Lemmas.Cut
import Verif.Lemmas.Dither
import Verif.Lemmas.EndRecord
import Verif.Lemmas.Entries
import Verif.Lemmas.Extension
import Verif.Lemmas.Failing
import Verif.Lemmas.Field
import Verif.Lemmas.Final
import Verif.Lemmas.First
import Verif.Lemmas.Fits
import Verif.Lemmas.History
import Verif.Lemmas.ImageDecoder
import Verif.Lemmas.Input
import Verif.Lemmas.InputData
import Verif.Lemmas.InputInside
import Verif.Lemmas.Kept
import Verif.Lemmas.Longer
import Verif.Lemmas.Next
import Verif.Lemmas.NoEof
import Verif.Lemmas.NoPanic
import Verif.Lemmas.Number
import Verif.Lemmas.Pixels
import Verif.Lemmas.Reach
import Verif.Lemmas.ReachTiles
import Verif.Lemmas.Rice
import Verif.Lemmas.RiceChecked
import Verif.Lemmas.RiceEnds
import Verif.Lemmas.RicePrefix
import Verif.Lemmas.Session
import Verif.Lemmas.Slash
import Verif.Lemmas.Split
import Verif.Lemmas.Table
import Verif.Lemmas.TableEnds
import Verif.Lemmas.TablePlain
import Verif.Lemmas.TablePrefix
import Verif.Lemmas.TableSamples
import Verif.Lemmas.TableWalk
import Verif.Lemmas.TableWrite
import Verif.Lemmas.Text
import Verif.Lemmas.Tile
import Verif.Lemmas.TileBytes
import Verif.Lemmas.TileOrder
import Verif.Lemmas.TilePanic
import Verif.Lemmas.TileSamples
import Verif.Lemmas.TilesInside
import Verif.Lemmas.Tiling
import Verif.Lemmas.Utf8
import Verif.Lemmas.Walk
import Verif.Lemmas.Writer
import Verif.Lemmas.WrittenCut
import Verif.Lemmas.WrittenTable
import Verif.Lemmas.WrittenTiles
import Verif.Model.Async
import Verif.Model.Basic
import Verif.Model.Card
import Verif.Model.Cli
import Verif.Model.Deserialize
import Verif.Model.Dither
import Verif.Model.Extension
import Verif.Model.Fits
import Verif.Model.Gz
import Verif.Model.Header
import Verif.Model.ImageDecoder
import Verif.Model.Input
import Verif.Model.InputBytes
import Verif.Model.InputData
import Verif.Model.InputTiles
import Verif.Model.ItBytes
import Verif.Model.Iter
import Verif.Model.Keyword
import Verif.Model.Position
import Verif.Model.Rice
import Verif.Model.RowViews
import Verif.Model.Session
import Verif.Model.Table
import Verif.Model.Text
import Verif.Model.Tile
import Verif.Model.Wcs
import Verif.Props.C01
import Verif.Props.C02_C08
import Verif.Props.C07
import Verif.Props.C09_C16
import Verif.Props.C100
import Verif.Props.C101
import Verif.Props.C102
import Verif.Props.C103
import Verif.Props.C104
import Verif.Props.C105
import Verif.Props.C105_Fails
import Verif.Props.C17_C21
import Verif.Props.C20
import Verif.Props.C22_C24
import Verif.Props.C25
import Verif.Props.C25_C28
import Verif.Props.C29_C32
import Verif.Props.C33_C34
import Verif.Props.C33_Exact
import Verif.Props.C34_Exact
import Verif.Props.C35_C36
import Verif.Props.C36
import Verif.Props.C37_C39
import Verif.Props.C37_Exact
import Verif.Props.C40_C42
import Verif.Props.C41
import Verif.Props.C42_Prefix
import Verif.Props.C43
import Verif.Props.C43_Exact
import Verif.Props.C44
import Verif.Props.C44_C45
import Verif.Props.C45
import Verif.Props.C46
import Verif.Props.C47_C51
import Verif.Props.C48_Exact
import Verif.Props.C49
import Verif.Props.C51
import Verif.Props.C52_C53
import Verif.Props.C54
import Verif.Props.C55
import Verif.Props.C57
import Verif.Props.C59
import Verif.Props.C60
import Verif.Props.C61
import Verif.Props.C61_Exact
import Verif.Props.C61_Release
import Verif.Props.C62
import Verif.Props.C62_exact
import Verif.Props.C63
import Verif.Props.C64
import Verif.Props.C64_Exact
import Verif.Props.C65
import Verif.Props.C66
import Verif.Props.C66_C68
import Verif.Props.C69
import Verif.Props.C71_C72
import Verif.Props.C73
import Verif.Props.C74
import Verif.Props.C75
import Verif.Props.C76
import Verif.Props.C76_Exact
import Verif.Props.C77
import Verif.Props.C78
import Verif.Props.C78_Exact
import Verif.Props.C79
import Verif.Props.C80
import Verif.Props.C81
import Verif.Props.C82
import Verif.Props.C83
import Verif.Props.C84
import Verif.Props.C85
import Verif.Props.C86
import Verif.Props.C87
import Verif.Props.C88
import Verif.Props.C89
import Verif.Props.C90
import Verif.Props.C91
import Verif.Props.C92
import Verif.Props.C93
import Verif.Props.C94
import Verif.Props.C95
import Verif.Props.C96
import Verif.Props.C96_Tiles
import Verif.Props.C97
import Verif.Props.C98
import Verif.Props.C99
import Verif.Props.C99_Drift
import Verif.Spec.Async
import Verif.Spec.AsyncEnd
import Verif.Spec.AsyncFail
import Verif.Spec.AsyncPolls
import Verif.Spec.Card
import Verif.Spec.Cli
import Verif.Spec.Cut
import Verif.Spec.CutAsync
import Verif.Spec.Dither
import Verif.Spec.Drift
import Verif.Spec.Entries
import Verif.Spec.Extension
import Verif.Spec.Failing
import Verif.Spec.FailingPixels
import Verif.Spec.Gzip
import Verif.Spec.Hdu
import Verif.Spec.History
import Verif.Spec.ImageDecoder
import Verif.Spec.Kept
import Verif.Spec.Layout
import Verif.Spec.LayoutKeys
import Verif.Spec.Longer
import Verif.Spec.Pixels
import Verif.Spec.Place
import Verif.Spec.Position
import Verif.Spec.Reach
import Verif.Spec.Rice
import Verif.Spec.RowViews
import Verif.Spec.Samples
import Verif.Spec.Session
import Verif.Spec.Table
import Verif.Spec.TableEnds
import Verif.Spec.TablePlain
import Verif.Spec.TableSamples
import Verif.Spec.TableWalk
import Verif.Spec.Text
import Verif.Spec.Tile
import Verif.Spec.TileOrder
import Verif.Spec.TileSamples
import Verif.Spec.TileSound
import Verif.Spec.TilesEnd
import Verif.Spec.Utf8
import Verif.Spec.Width
import Verif.Spec.Writer
import Verif.Spec.WriterCut
import Verif.Spec.WriterSamples
import Verif.Tests.Upstream
