import Verif.Base.Map
import Verif.Base.Num
import Verif.Base.Paging
import Verif.Base.Snapshot
import Verif.Membership.Model
import Verif.Membership.Queries
import Verif.Base.Except
import Verif.Staking.Model
import Verif.Staking.Spec
import Verif.Staking.Lemmas
import Verif.Staking.Lemmas2
import Verif.Staking.Props
import Verif.Staking.Props2
import Verif.Staking.Props3
import Verif.Staking.Props4
import Verif.Base.SnapSteps
import Verif.Nft.Model
import Verif.Nft.Spec
import Verif.Nft.Lemmas
import Verif.Nft.Props
import Verif.Nft.Props2
import Verif.Nft.Props3
import Verif.Nft.Props4
import Verif.Nft.Migrate
import Verif.Nft.MigrateProps
import Verif.Multisig.Model
import Verif.Multisig.Spec
import Verif.Multisig.Lemmas
import Verif.Multisig.Props
import Verif.Multisig.Props2
import Verif.Base.Asset
import Verif.Treasury.Model
import Verif.Treasury.Spec
import Verif.Treasury.Lemmas
import Verif.Treasury.Props
import Verif.Migration.Model
import Verif.Migration.Spec
import Verif.Migration.Lemmas
import Verif.Migration.Props
import Verif.Migration.System
import Verif.Distributor.Model
import Verif.Distributor.Spec
import Verif.Distributor.Lemmas
import Verif.Distributor.Lemmas2
import Verif.Distributor.Lemmas3
import Verif.Distributor.Props
import Verif.Distributor.Spec2
import Verif.Distributor.Dust
import Verif.Distributor.Props2
import Verif.Distributor.Props3
import Verif.Gov.Model
import Verif.Gov.Spec
import Verif.Gov.Lemmas
import Verif.Gov.Lemmas2
import Verif.Gov.Lemmas3
import Verif.Gov.Props
import Verif.Gov.Props2
import Verif.Gov.Props3
import Verif.Gov.Props4
import Verif.Gov.Props5
import Verif.Gov.Props6
import Verif.Controller.Model
import Verif.Controller.Spec
import Verif.Controller.Lemmas
import Verif.Controller.Lemmas2
import Verif.Dao.Model
import Verif.Controller.Props
import Verif.Dao.Spec
import Verif.Dao.Member
import Verif.Dao.Lemmas
import Verif.Dao.Lemmas2
import Verif.Dao.Lemmas3
import Verif.Dao.Lemmas4
import Verif.Dao.Lemmas5
import Verif.Dao.Lemmas6
import Verif.Dao.Sim
import Verif.Dao.Sample
import Verif.Dao.Props
import Verif.Dao.Props2
import Verif.Dao.Props3
import Verif.Versioning.Model
import Verif.Versioning.Props
import Verif.Enterprise.Model
import Verif.Enterprise.Lemmas
import Verif.Enterprise.Props
import Verif.Enterprise.Props2
import Verif.Outposts.Model
import Verif.Outposts.Props
import Verif.Factory.Model
import Verif.Factory.Lemmas
import Verif.Factory.Props
import Verif.Factory.Codes
import Verif.Base.Ledger
import Verif.Callback.Model
import Verif.Custody.Token
import Verif.Custody.TokenProps
import Verif.Custody.TokenProps2
import Verif.Custody.Collection
import Verif.Custody.CollectionProps
import Verif.Custody.Rewards
import Verif.Custody.Deposits
import Verif.Custody.DepositsProps
import Verif.Pages.Props
import Verif.Controller.Spec2
import Verif.Controller.Lemmas3
import Verif.Controller.Props2
import Verif.Controller.Props3
import Verif.Controller.Queries
import Verif.Dao.Props4
import Verif.Dao.Props5
import Verif.Facade.Legacy
import Verif.Facade.Model
import Verif.Facade.V1
import Verif.Facade.Spec
import Verif.Facade.Sample
import Verif.Facade.Props
import Verif.Facade.Requests
import Verif.Facade.Proposals
import Verif.Facade.LegacyProps
import Verif.Facade.Queries
import Verif.Custody.Spending
import Verif.Custody.SpendingLemmas
import Verif.Custody.SpendingLemmas2
import Verif.Custody.SpendingProps
import Verif.Dao.Period
import Verif.Dao.Props6
import Verif.Birth.Model
import Verif.Birth.Spec
import Verif.Birth.Lemmas
import Verif.Birth.Props
import Verif.Dao.Totals
import Verif.Dao.Props7
import Verif.Dao.Props8
import Verif.Dao.Leave
import Verif.Dao.Props9
import Verif.Versioning.TextProps
import Verif.Migration.NftSystem
import Verif.Dao.Join
import Verif.Dao.Props10
import Verif.Dao.Props11
import Verif.Dao.Props12
import Verif.Distributor.Props4
import Verif.Distributor.Props5
import Verif.Distributor.Props6
import Verif.Distributor.Props7
import Verif.Distributor.Props8
import Verif.Distributor.Props9
import Verif.Dao.Trace
import Verif.Dao.Rewards
import Verif.Dao.Props13
import Verif.Factory.Props2
import Verif.Dao.Props14
import Verif.Dao.Orders
import Verif.Dao.Props15
import Verif.Dao.Effect
import Verif.Dao.Props16
import Verif.Dao.Props17
import Verif.Dao.Props18
import Verif.Dao.Props19
import Verif.Dao.Props20
import Verif.Dao.Props21
import Verif.Dao.SimTrace
import Verif.Dao.Props22
import Verif.Dao.Props23
import Verif.Dao.Calm
import Verif.Dao.Props24
import Verif.Dao.Props25
import Verif.Dao.Props26
import Verif.Dao.Props27
import Verif.Dao.Props28
import Verif.Dao.Props29
import Verif.Migration.Props3
import Verif.Migration.Props4
import Verif.Dao.Props30
import Verif.Dao.Props31
import Verif.Dao.Props32
import Verif.Dao.Order
import Verif.Dao.Props33
import Verif.Dao.Props34
import Verif.Pages.Props2
import Verif.Dao.Props35
import Verif.Gov.Props7
import Verif.Staking.Props5
import Verif.Nft.Props5
import Verif.Multisig.Props3
import Verif.Distributor.Props10
import Verif.Distributor.Props11
import Verif.Distributor.Props12
import Verif.Distributor.Props13
import Verif.Distributor.Props14
import Verif.Distributor.Props15
import Verif.Gov.Props8
import Verif.Membership.Clock
import Verif.Staking.Props6
import Verif.Staking.Props7
import Verif.Staking.Props8
import Verif.Nft.Props6
import Verif.Nft.Props7
import Verif.Nft.Props8
import Verif.Multisig.Props4
import Verif.Multisig.Props5
import Verif.Gov.Props9
import Verif.Gov.Props10
import Verif.Gov.Props11
import Verif.Controller.Rename
import Verif.Dao.Rename
import Verif.Dao.Props36
import Verif.Dao.Aside
import Verif.Dao.Props37
import Verif.Dao.Shadow
import Verif.Dao.Props38
import Verif.Dao.Rules
import Verif.Dao.Props39
import Verif.Dao.Net
import Verif.Dao.Props40
import Verif.Dao.LeaveOut
import Verif.Dao.Props41
import Verif.Dao.Props42
import Verif.Dao.Props43
import Verif.Many.Model
import Verif.Many.Lemmas
import Verif.Many.Sim
import Verif.Many.Props
import Verif.Many.Props2
import Verif.Migration.Props2
import Verif.Custody.Distribution
import Verif.Custody.DistributionProps
import Verif.Audit
